import Verif.Props.EndToEnd
import Verif.Props.Token
import Verif.Std.Instance
/-!
# C117: things of one kind are not taken for another, even under equal keys

Objects, access lists, tokens, index nodes, users and groups are encrypted with keys that the configuration keeps apart, or should.
Here all six kinds are encrypted under one and the same key.  What keeps them apart then is the associated data and the form of the
plaintext.
-/
namespace D1
open Spec Prog

/-! ## Specification -/

/-- What the library encrypts, and what it is encrypted for: objects by ID and associated data, access lists by ID, tokens by time,
nodes by label, users and groups by their names, which are UUIDs (id/standalone.go:136-140, 303-307). -/
inductive Thing where
  | object (oid : Oid) (ad : NBytes) (plaintext : NBytes)
  | access (oid : Oid) (a : Access)
  | token (expiry : GoTime) (plaintext : NBytes)
  | node (label : BytesN 32) (n : Node)
  | user (uid : Oid) (u : User)
  | group (gid : Oid) (g : Group)

/-- The number of a kind. -/
def Thing.kind : Thing → Nat
  | .object .. => 0
  | .access .. => 1
  | .token .. => 2
  | .node .. => 3
  | .user .. => 4
  | .group .. => 5

/-- Sealing the thing gave this wrapped key and ciphertext. -/
def Thing.Seals (P : Prims) (c : Cryptor) (w ct : Bytes) : Thing → Prop
  | .object oid ad p => ∃ tr, Yields ((⟨p, ad⟩ : Object).seal P oid c) tr (.ok (w, ⟨some ct, ad, oid⟩))
  | .access oid a => ∃ tr, Yields (a.seal P oid c) tr (.ok ⟨oid, some ct, some w⟩)
  | .token t p => ∃ tr, Yields ((⟨p, t⟩ : Token).seal P c) tr (.ok ⟨t, some ct, some w⟩)
  | .node label n => ∃ tr, Yields (n.seal P label.1 c) tr (.ok ⟨some ct, some w⟩)
  | .user uid u => ∃ tr, Yields (u.seal P (uuidText uid) c) tr (.ok ⟨uuidText uid, some ct, some w⟩)
  | .group gid g => ∃ tr, Yields (g.seal P (uuidText gid) c) tr (.ok ⟨uuidText gid, some ct, some w⟩)

/-- Unsealing this wrapped key and ciphertext gave the thing. -/
def Thing.Opens (P : Prims) (c : Cryptor) (w ct : Bytes) : Thing → Prop
  | .object oid ad p => SealedObject.unseal P ⟨some ct, ad, oid⟩ (some w) c = .ok ⟨p, ad⟩
  | .access oid a => SealedAccess.unseal P ⟨oid, some ct, some w⟩ c = .ok a
  | .token t p => ∃ tr, Yields (SealedToken.unseal P ⟨t, some ct, some w⟩ c) tr (.ok ⟨p, t⟩)
  | .node label n => SealedNode.unseal P ⟨some ct, some w⟩ label.1 c = .ok n
  | .user uid u => SealedUser.unseal P ⟨uuidText uid, some ct, some w⟩ c = .ok u
  | .group gid g => SealedGroup.unseal P ⟨uuidText gid, some ct, some w⟩ c = .ok g

/-- The associated data (data/object.go:48-50, data/access.go:54, data/token.go:58, data/node.go:47, id/standalone_user.go:93,
id/standalone_group.go:44). -/
def Thing.aad (P : Prims) : Thing → J
  | .object oid ad _ => .ofBytes (some (oid.1 ++ ad.bytes))
  | .access oid _ => .ofBytes (some oid.1)
  | .token t _ => .str (P.timeText t)
  | .node label _ => .ofBytes (some label.1)
  | .user uid _ => .str (uuidText uid)
  | .group gid _ => .str (uuidText gid)

/-- The text of the time of a token has a colon, as all times of years 0 to 9999 have. -/
def Thing.Dated (P : Prims) : Thing → Prop
  | .token t _ => 58 ∈ P.timeText t
  | _ => True

/-- What can be taken for what: an object with nil contents and no associated data for an access list that gives access to nobody, an
object with nil contents for a node without contents, a user for a group with the same name and scopes, and a group for a user with
the same name and scopes, no password and no memberships. -/
inductive Confused : Thing → Thing → Prop
  | nobody (oid : Oid) (ad : NBytes) (h : ad.bytes = []) : Confused (.object oid ad none) (.access oid ⟨none, none⟩)
  | empty (oid : Oid) (ad : NBytes) (label : BytesN 32) (h : oid.1 ++ ad.bytes = label.1) :
    Confused (.object oid ad none) (.node label zeroNode)
  | userGroup (i : Oid) (u : User) : Confused (.user i u) (.group i ⟨u.scopes⟩)
  | groupUser (i : Oid) (g : Group) : Confused (.group i g) (.user i ⟨none, g.scopes, none⟩)

/-- AES-GCM opened, for the associated data of `y`, what it had sealed for the other associated data of `x`, under a key that was
drawn for this and the nonce that was drawn for this. -/
def Swapped (P : Prims) (c : Cryptor) (w ct : Bytes) (x y : Thing) : Prop :=
  ∃ (key : BytesN 32) (nonce : BytesN 12) (p q : Bytes), kwpUnwrap P c.kwp w = .ok key.1 ∧
    ct = P.gcmSeal key.1 nonce.1 (x.aad P).render p ++ nonce.1 ∧ (y.aad P).render ≠ (x.aad P).render ∧
    P.gcmOpen key.1 nonce.1 (y.aad P).render (P.gcmSeal key.1 nonce.1 (x.aad P).render p) = some q

/-! ## Proofs -/

/-- The plaintext. -/
def Thing.body : Thing → J
  | .object _ _ p => .ofBytes p
  | .access _ a => a.toJ
  | .token _ p => .ofBytes p
  | .node _ n => n.toJ
  | .user _ u => u.toJ
  | .group _ g => g.toJ

/-- The value is read as the thing. -/
def Thing.Reads (j : J) : Thing → Prop
  | .object _ _ p => j.toBytes = some p
  | .access _ a => Access.ofJ j = some a
  | .token _ p => j.toBytes = some p
  | .node _ n => Node.ofJ j = some n
  | .user _ u => User.ofJ j = some u
  | .group _ g => Group.ofJ j = some g

theorem colon_b64 (url : Bool) (b : Bytes) : (58 : UInt8) ∉ b64Enc url b := by
  intro h
  rcases b64Enc_mem url b _ h with ⟨n, hn, e⟩ | e
  · exact (show ∀ url n, n < 64 → (58 : UInt8) ≠ b64Char url n by decide) url n hn e
  · exact absurd e (by decide)

theorem dash_b64 (b : Bytes) : (45 : UInt8) ∉ b64Enc false b := by
  intro h
  rcases b64Enc_mem false b _ h with ⟨n, hn, e⟩ | e
  · exact (show ∀ n, n < 64 → (45 : UInt8) ≠ b64Char false n by decide) n hn e
  · exact absurd e (by decide)

theorem dash_uuid (u : Oid) : (45 : UInt8) ∈ uuidText u := by simp [uuidText]

theorem colon_hex (b : Bytes) : (58 : UInt8) ∉ hexEnc b := by
  induction b with
  | nil => simp [hexEnc]
  | cons a r ih =>
    have := toNat_lt a
    have h : ∀ n, n < 16 → (58 : UInt8) ≠ hexDigit n := by decide
    simp only [hexEnc, List.mem_cons, not_or]
    exact ⟨h _ (by omega), h _ (by omega), ih⟩

theorem colon_uuid (u : Oid) : (58 : UInt8) ∉ uuidText u := by
  simp [uuidText, colon_hex]

section
variable {P : Prims} (L : P.Laws)
include L

theorem seals_box {c : Cryptor} {w ct : Bytes} {x : Thing} (h : x.Seals P c w ct) : ∃ (key : BytesN 32) (nonce : BytesN 12),
    w = kwpBox P c.kwp key.1 ∧ ct = gcmBox P key.1 nonce.1 (x.aad P).render x.body.render := by
  have hx : ∀ {β : Type} {m a : J} {k : Bytes × Bytes → β} {tr : List Event} {r : β},
      Yields ((c.encrypt P m a).bind fun z => .ret (k z)) tr (.ok r) → ∃ (key : BytesN 32) (nonce : BytesN 12),
        r = k (kwpBox P c.kwp key.1, gcmBox P key.1 nonce.1 a.render m.render) := by
    intro β m a k tr r h
    rw [Cryptor.encrypt_eq L] at h
    simp only [Prog.bind_assoc, Prog.ret_bind] at h
    obtain ⟨_, _, key, _, _, h⟩ := yields_bind_ok.mp h
    obtain ⟨_, _, n, _, _, h⟩ := yields_bind_ok.mp h
    obtain ⟨_, h⟩ := yields_ret.mp h
    cases h
    exact ⟨key, n, rfl⟩
  cases x <;> (obtain ⟨tr, h⟩ := h; obtain ⟨key, n, e⟩ := hx h; refine ⟨key, n, ?_⟩)
  all_goals (cases e; exact ⟨rfl, rfl⟩)

omit L in
theorem opens_reads {c : Cryptor} {w ct : Bytes} {y : Thing} (h : y.Opens P c w ct) :
    ∃ j, c.decrypt P some (y.aad P) w ct = .ok j ∧ y.Reads j := by
  have hx : ∀ {α : Type} {dec : J → Option α} {a : J} {v : α}, c.decrypt P dec a w ct = .ok v →
      ∃ j, c.decrypt P some a w ct = .ok j ∧ dec j = some v := by
    intro α dec a v h
    rw [Cryptor.decrypt] at h ⊢
    split at h
    · cases h
    · simp only at h ⊢
      split at h
      · cases h
      · cases hu : P.unmarshal _ with
        | none => rw [hu] at h; cases h
        | some j =>
          rw [hu] at h
          simp only [Option.bind_some] at h
          refine ⟨j, by simp [*], ?_⟩
          split at h
          · cases h
          · cases h; assumption
  cases y with
  | object oid ad p =>
    simp only [Thing.Opens, SealedObject.unseal, NBytes.bytes, Option.getD_some] at h
    split at h
    · cases h
    · rename_i q hq
      cases h
      exact hx hq
  | access oid a => exact hx h
  | token t p =>
    obtain ⟨tr, h⟩ := h
    simp only [SealedToken.unseal, Prog.bind_eq, yields_now] at h
    obtain ⟨now, tr', _, h⟩ := h
    split at h
    · simp at h
    · obtain ⟨_, _, q, _, h1, h2⟩ := yields_bind_ok.mp h
      obtain ⟨_, h2⟩ := yields_ret.mp h2
      cases h2
      refine hx (dec := J.toBytes) ?_
      revert h1
      simp only [NBytes.bytes, Option.getD_some]
      show Yields (Prog.ofExcept (c.decrypt P J.toBytes (.ofTime P t) w ct)) _ _ → c.decrypt P J.toBytes (.ofTime P t) w ct = _
      cases c.decrypt P J.toBytes (.ofTime P t) w ct with
      | error e => intro h; simp [Prog.ofExcept] at h
      | ok q' => intro h; simp [Prog.ofExcept] at h; rw [h.2]
  | node label n => exact hx h
  | user uid u => exact hx h
  | group gid g => exact hx h

/-- The text of the associated data. -/
def Thing.name (P : Prims) : Thing → GoString
  | .object oid ad _ => b64Enc false (oid.1 ++ ad.bytes)
  | .access oid _ => b64Enc false oid.1
  | .token t _ => P.timeText t
  | .node label _ => b64Enc false label.1
  | .user uid _ => uuidText uid
  | .group gid _ => uuidText gid

omit L in
theorem aad_name (x : Thing) : x.aad P = .str (x.name P) := by
  cases x <;> rfl

theorem name_eq {x y : Thing} (h : (x.aad P).render = (y.aad P).render) : x.name P = y.name P := by
  rw [aad_name, aad_name] at h
  have h := str_render_inj L h
  have hs : ∀ z : Thing, sanitize (z.name P) = z.name P := by
    intro z
    cases z <;> simp [Thing.name, sanitize_timeText L]
  rwa [hs, hs] at h

omit L in
theorem b64_inj {a b : Bytes} (h : b64Enc false a = b64Enc false b) : a = b := by
  have := congrArg (b64Dec false) h
  simpa [b64Dec_enc] using this

/-- What can be read as what, when the associated data agree. -/
theorem confused_of {x y : Thing} (hk : x.kind ≠ y.kind) (hx : x.Dated P) (hy : y.Dated P) (ha : (x.aad P).render = (y.aad P).render)
    (hr : y.Reads x.body.san) : Confused x y := by
  have hn := name_eq L ha
  have h1 : ∀ {t : Bytes} {b : Bytes}, 58 ∈ t → t ≠ b64Enc false b := fun h e => colon_b64 _ _ (e ▸ h)
  have h2 : ∀ {t : Bytes} {u : Oid}, 58 ∈ t → t ≠ uuidText u := fun h e => colon_uuid _ (e ▸ h)
  have h3 : ∀ {u : Oid} {b : Bytes}, uuidText u ≠ b64Enc false b := fun {u} {b} e => dash_b64 b (e ▸ dash_uuid u)
  have h4 : ∀ {p : NBytes} {fs : JFields}, (J.ofBytes p).fields = some fs → p = none ∧ fs = .nil := by
    intro p fs h
    cases p with
    | none => simp only [J.ofBytes, J.fields, Option.some.injEq] at h; exact ⟨rfl, h.symm⟩
    | some b => simp [J.ofBytes, J.fields] at h
  cases x <;> cases y <;> simp only [Thing.kind, ne_eq, not_true_eq_false] at hk <;> simp only [Thing.name] at hn
  all_goals first
    | exact absurd hn (h1 hx)
    | exact absurd hn.symm (h1 hy)
    | exact absurd hn (h2 hx)
    | exact absurd hn.symm (h2 hy)
    | exact absurd hn h3
    | exact absurd hn.symm h3
    | skip
  case object.access oid ad p oid' a =>
    have e := b64_inj hn
    have hl := congrArg List.length e
    rw [List.length_append, oid.2, oid'.2] at hl
    have had : ad.bytes = [] := List.eq_nil_of_length_eq_zero (by omega)
    rw [had, List.append_nil] at e
    obtain rfl : oid = oid' := Subtype.ext e
    simp only [Thing.Reads, Thing.body, san_ofBytes, Access.ofJ, Option.bind_eq_bind] at hr
    obtain ⟨fs, hf, hr⟩ := Option.bind_eq_some_iff.mp hr
    obtain ⟨rfl, rfl⟩ := h4 hf
    simp [field, JFields.lookup] at hr
    rw [← hr]
    exact .nobody _ _ had
  case object.node oid ad p label n =>
    have e := b64_inj hn
    simp only [Thing.Reads, Thing.body, san_ofBytes, Node.ofJ, Option.bind_eq_bind] at hr
    obtain ⟨fs, hf, hr⟩ := Option.bind_eq_some_iff.mp hr
    obtain ⟨rfl, rfl⟩ := h4 hf
    simp [field, JFields.lookup] at hr
    rw [← hr]
    exact .empty _ _ _ e
  case access.object => simp [Thing.Reads, Thing.body, Access.toJ, J.san, J.toBytes] at hr
  case access.node oid a label n =>
    have hl := congrArg List.length (b64_inj hn)
    rw [oid.2, label.2] at hl
    omega
  case node.object => simp [Thing.Reads, Thing.body, Node.toJ, J.san, J.toBytes] at hr
  case node.access label n oid a =>
    have hl := congrArg List.length (b64_inj hn)
    rw [oid.2, label.2] at hl
    omega
  case user.group uid u gid g =>
    obtain rfl := Option.some.inj ((L.uuid_parse _).symm.trans ((congrArg P.uuidParse hn).trans (L.uuid_parse _)))
    simp [Thing.Reads, Thing.body, Group.ofJ, User.toJ, J.san, JFields.san, J.fields, field, JFields.lookup, show nGroups ≠ nScopes by decide,
      show nSaltAndHash ≠ nScopes by decide] at hr
    rw [← hr]
    exact .userGroup _ _
  case group.user gid g uid u =>
    obtain rfl := Option.some.inj ((L.uuid_parse _).symm.trans ((congrArg P.uuidParse hn).trans (L.uuid_parse _)))
    simp [Thing.Reads, Thing.body, User.ofJ, Group.toJ, J.san, JFields.san, J.fields, field, JFields.lookup, show nScopes ≠ nGroups by decide,
      show nScopes ≠ nSaltAndHash by decide] at hr
    rw [← hr]
    exact .groupUser _ _

/-- C117: what is sealed as one kind is not opened as another, even under the same key, except for what `Confused` lists, unless
AES-GCM opens a ciphertext for associated data that it was not sealed for. -/
theorem C117_kinds (c : Cryptor) {w ct : Bytes} {x y : Thing} (hs : x.Seals P c w ct) (ho : y.Opens P c w ct) (hk : x.kind ≠ y.kind)
    (hx : x.Dated P) (hy : y.Dated P) : Confused x y ∨ Swapped P c w ct x y := by
  obtain ⟨key, nonce, rfl, rfl⟩ := seals_box L hs
  obtain ⟨j, hd, hr⟩ := opens_reads ho
  by_cases ha : (x.aad P).render = (y.aad P).render
  · left
    rw [ha, Cryptor.decrypt_box L] at hd
    simp only [Except.ok.injEq] at hd
    rw [← hd] at hr
    exact confused_of L hk hx hy ha hr
  · right
    obtain ⟨key', nonce', q, j', hw, hc, _, _⟩ := (Cryptor.decrypt_ok_iff L c some (y.aad P) _ _ j).mp hd
    obtain rfl : key = key' := Subtype.ext (kwpBox_inj L _ _ _ key.2 key'.2 hw)
    have hlen := congrArg List.length hc
    simp only [gcmBox, List.length_append, nonce.2, nonce'.2, Nat.add_right_cancel_iff] at hlen
    obtain ⟨h1, h2⟩ := List.append_inj hc hlen
    obtain rfl : nonce = nonce' := Subtype.ext h2
    refine ⟨key, nonce, _, q, kwpUnwrap_box L _ _ key.2, rfl, fun e => ha e.symm, ?_⟩
    rw [h1]
    exact L.gcm_open_seal _ _ _ _

/-- C117: what `Confused` lists does happen. -/
theorem C117_confused (c : Cryptor) {w ct : Bytes} {x y : Thing} (hs : x.Seals P c w ct) (hc : Confused x y) : y.Opens P c w ct := by
  obtain ⟨key, nonce, rfl, rfl⟩ := seals_box L hs
  cases hc with
  | nobody oid ad h =>
    show c.decrypt P Access.ofJ (.ofBytes (some oid.1)) _ _ = _
    have : (Thing.object oid ad none).aad P = .ofBytes (some oid.1) := by simp [Thing.aad, h]
    rw [this, NBytes.bytes, NBytes.bytes, Option.getD_some, Option.getD_some, Cryptor.decrypt_box L]
    rfl
  | empty oid ad label h =>
    show c.decrypt P Node.ofJ (.ofBytes (some label.1)) _ _ = _
    have : (Thing.object oid ad none).aad P = .ofBytes (some label.1) := by simp [Thing.aad, h]
    rw [this, NBytes.bytes, NBytes.bytes, Option.getD_some, Option.getD_some, Cryptor.decrypt_box L]
    rfl
  | userGroup i u =>
    show c.decrypt P Group.ofJ (.str (uuidText i)) _ _ = _
    rw [NBytes.bytes, NBytes.bytes, Option.getD_some, Option.getD_some]
    show c.decrypt P Group.ofJ (.str (uuidText i)) (kwpBox P c.kwp key.1) (gcmBox P key.1 nonce.1 (J.str (uuidText i)).render u.toJ.render) = _
    rw [Cryptor.decrypt_box L]
    simp [Group.ofJ, User.toJ, J.san, JFields.san, J.fields, field, JFields.lookup, show nGroups ≠ nScopes by decide,
      show nSaltAndHash ≠ nScopes by decide]
  | groupUser i g =>
    show c.decrypt P User.ofJ (.str (uuidText i)) _ _ = _
    rw [NBytes.bytes, NBytes.bytes, Option.getD_some, Option.getD_some]
    show c.decrypt P User.ofJ (.str (uuidText i)) (kwpBox P c.kwp key.1) (gcmBox P key.1 nonce.1 (J.str (uuidText i)).render g.toJ.render) = _
    rw [Cryptor.decrypt_box L]
    simp [User.ofJ, Group.toJ, J.san, JFields.san, J.fields, field, JFields.lookup, show nScopes ≠ nGroups by decide,
      show nScopes ≠ nSaltAndHash by decide]

/-! ## A case -/

/-- C117: everything can be sealed. -/
theorem C117_case (c : Cryptor) (x : Thing) : ∃ w ct, x.Seals P c w ct := by
  have hx : ∀ {β : Type} (m a : J) (k : Bytes × Bytes → β), ∃ w ct tr, Yields ((c.encrypt P m a).bind fun z => .ret (k z)) tr (.ok (k (w, ct))) := by
    intro β m a k
    rw [Cryptor.encrypt_eq L]
    simp only [Prog.bind_assoc, Prog.ret_bind]
    let key : BytesN 32 := ⟨List.replicate 32 7, by simp⟩
    let nonce : BytesN 12 := ⟨List.replicate 12 7, by simp⟩
    refine ⟨_, _, _, yields_bind_ok.mpr ⟨_, _, key, rfl, yields_rand.mpr (.inl ⟨key, rfl, rfl⟩),
      yields_bind_ok.mpr ⟨_, _, nonce, rfl, yields_rand.mpr (.inl ⟨nonce, rfl, rfl⟩), yields_ret.mpr ⟨rfl, rfl⟩⟩⟩⟩
  cases x <;> exact hx _ _ _

end

/-- C117: times of years 0 to 9999 have a colon. -/
theorem C117_dated (t : GoTime) (p : NBytes) (h : Std.inYears t.ns (Std.zoneOf t)) : (Thing.token t p).Dated Std.stdPrims := by
  show 58 ∈ Std.timeText t
  rw [Std.timeText, if_pos h]
  simp [Std.clockText]

/-- A user whose record is taken for a group, with standard algorithms and equal keys. -/
example (c : Cryptor) (i : Oid) (u : User) : ∃ w ct, (Thing.user i u).Seals Std.stdPrims c w ct ∧ (Thing.group i ⟨u.scopes⟩).Opens Std.stdPrims c w ct :=
  let ⟨w, ct, h⟩ := C117_case Std.stdLaws c (.user i u)
  ⟨w, ct, h, C117_confused Std.stdLaws c h (.userGroup i u)⟩

end D1
