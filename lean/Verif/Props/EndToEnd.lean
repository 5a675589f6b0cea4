import Verif.Props.Standalone
import Verif.Props.Crash
/-!
# Bound records, token kinds, and D1 on top of the Standalone provider: C42, C43, C44
-/
namespace D1
open Spec Prog

section
variable {P : Prims} (L : P.Laws) {s : Standalone} {env : Env}

/-! ## C42 -/

include L in
/-- `getUser` and `getGroup` do not compare the ID in the record with the ID that was asked for: whatever the key, a genuine record is
accepted. -/
theorem run_getUser_moved (hf : NoFault env) {w : World} {a b : GoString} {u : DirUser} (h : UserAt P s w.store a u)
    (hb : w.store b dtUser = w.store a dtUser) :
    ∃ hash, (s.getUser P b).run env w = (.ok ⟨some hash, u.scopes, some u.groups⟩, w.next w.store) ∧
      ∀ p, comparePassword P p hash = some (u.accepts p) := by
  obtain ⟨hash, hg, hc⟩ := run_getUser L hf h
  refine ⟨hash, ?_, hc⟩
  obtain ⟨x, hx⟩ := h.some
  rw [Standalone.getUser, Prog.bind_eq, Prog.run_bind_ok env (run_ioGet_some hf _ w a dtUser x hx)] at hg
  rw [Standalone.getUser, Prog.bind_eq, Prog.run_bind_ok env (run_ioGet_some hf _ w b dtUser x (hb.trans hx))]
  exact hg

include L in
/-- C42 is false of the code: if the IO Provider answers the request for user `b` with the record of user `a`, then whoever knows the
password of `a` logs in as `b`: `LoginUser(b, password of a)` succeeds and the returned token says `b`. -/
theorem C42_login_as_other (hf : NoFault env) (hr : RandOk env) {w : World} {a b pwd : GoString} {u : DirUser}
    (h : UserAt P s w.store a u) (hb : w.store b dtUser = w.store a dtUser) (hp : u.accepts pwd = true) :
    ∃ str exp w', (s.loginUser P b pwd).run env w = (.ok (str, exp), w') ∧
      ∀ now, now ≤ (env.now (w.t + 1)).ns + 3600 * 1000000000 → tokenUser P s.tokenCryptor str now = some b := by
  obtain ⟨hash, hg, hc⟩ := run_getUser_moved L hf h hb
  rw [loginUser_eq, Prog.run_bind_ok env (run_mapErr_ok.mpr hg)]
  have : (User.authenticate P ⟨some hash, u.scopes, some u.groups⟩ pwd).run env (w.next w.store) = (.ok (), w.next w.store) := by
    simp only [User.authenticate, NBytes.bytes, Option.getD_some, hc, hp]
    rfl
  rw [Prog.run_bind_ok env (run_mapErr_ok.mpr this)]
  have hm := run_mint L hr s.tokenCryptor (some b) (w.next w.store)
  rw [mint] at hm
  obtain ⟨t, w1, ht, hst⟩ := (Prog.run_bind_ok_iff env).mp hm
  rw [Prog.run_bind_ok env ht, Prog.run_bind_ok env (run_mapErr_ok.mpr hst)]
  refine ⟨_, _, _, rfl, fun now hn => ?_⟩
  rw [tokenUser_string L, if_pos]
  · rfl
  · exact hn

include L in
/-- C42 is false of the code for groups as well: the scopes of group `a` are taken for those of group `b`. -/
theorem C42_group_as_other (hf : NoFault env) {w : World} {a b : GoString} {sc : Scope} (h : GroupAt P s w.store a sc)
    (hb : w.store b dtGroup = w.store a dtGroup) : (s.getGroup P b).run env w = (.ok ⟨sc⟩, w.next w.store) := by
  have hg := run_getGroup L hf h
  obtain ⟨k, n, hx, _⟩ := h
  rw [Standalone.getGroup, Prog.bind_eq, Prog.run_bind_ok env (run_ioGet_some hf _ w a dtGroup _ hx)] at hg
  rw [Standalone.getGroup, Prog.bind_eq, Prog.run_bind_ok env (run_ioGet_some hf _ w b dtGroup _ (hb.trans hx))]
  exact hg

/-- The hypotheses of `C42_login_as_other` hold in a store with one user's record copied to another key. -/
example (k : BytesN 32) (n : BytesN 12) (pwd : GoString) (hash : Bytes) (hl : hash.length = 48) (hp : comparePassword P pwd hash = some true) :
    let x := some (sealedUser P s [97] ⟨some hash, scopeAll, some []⟩ k n).toJ.render
    let st : Store := Store.set (Store.set (fun _ _ => none) [97] dtUser x) [98] dtUser x
    UserAt P s st [97] ⟨fun p => (comparePassword P p hash).getD false, scopeAll, []⟩ ∧ st [98] dtUser = st [97] dtUser ∧
      (comparePassword P pwd hash).getD false = true := by
  refine ⟨⟨hash, k, n, rfl, fun p => ?_, by decide, .nil, by simp⟩, rfl, by rw [hp]; rfl⟩
  simp [comparePassword, hl, saltLength]

/-- The user cryptor accepts the record, but no sealing recorded in `sealed` has the same wrapped key, ciphertext and user ID: the key
wrapping or AES-GCM was forged. -/
def UserForgery (P : Prims) (s : Standalone) (sealed : GoString → User → SealedUser → Prop) (su : SealedUser) : Prop :=
  (∃ u, su.unseal P s.userCryptor = .ok u) ∧ ¬ ∃ uid u su', sealed uid u su' ∧ su'.wrappedKey.bytes = su.wrappedKey.bytes ∧
    su'.ciphertext.bytes = su.ciphertext.bytes ∧ (J.str su'.uid).render = (J.str su.uid).render

def GroupForgery (P : Prims) (s : Standalone) (sealed : GoString → Group → SealedGroup → Prop) (sg : SealedGroup) : Prop :=
  (∃ g, sg.unseal P s.groupCryptor = .ok g) ∧ ¬ ∃ gid g sg', sealed gid g sg' ∧ sg'.wrappedKey.bytes = sg.wrappedKey.bytes ∧
    sg'.ciphertext.bytes = sg.ciphertext.bytes ∧ (J.str sg'.gid).render = (J.str sg.gid).render

include L in
/-- What executions of `User.seal` return. -/
theorem yields_userSeal_ok {u : User} {uid : GoString} {c : Cryptor} {tr : List Event} {su : SealedUser}
    (h : Yields (u.seal P uid c) tr (.ok su)) : ∃ (k : BytesN 32) (n : BytesN 12),
      su = ⟨uid, some (gcmBox P k.1 n.1 (J.str uid).render u.toJ.render), some (kwpBox P c.kwp k.1)⟩ := by
  rw [User.seal, Cryptor.encrypt_eq L] at h
  simp only [Prog.bind_eq, Prog.pure_eq, Prog.bind_assoc, Prog.ret_bind] at h
  obtain ⟨_, _, k, _, _, h⟩ := yields_bind_ok.mp h
  obtain ⟨_, _, n, _, _, h⟩ := yields_bind_ok.mp h
  obtain ⟨_, h⟩ := yields_ret.mp h
  cases h
  exact ⟨k, n, rfl⟩

include L in
theorem yields_groupSeal_ok {g : Group} {gid : GoString} {c : Cryptor} {tr : List Event} {sg : SealedGroup}
    (h : Yields (g.seal P gid c) tr (.ok sg)) : ∃ (k : BytesN 32) (n : BytesN 12),
      sg = ⟨gid, some (gcmBox P k.1 n.1 (J.str gid).render g.toJ.render), some (kwpBox P c.kwp k.1)⟩ := by
  rw [Group.seal, Cryptor.encrypt_eq L] at h
  simp only [Prog.bind_eq, Prog.pure_eq, Prog.bind_assoc, Prog.ret_bind] at h
  obtain ⟨_, _, k, _, _, h⟩ := yields_bind_ok.mp h
  obtain ⟨_, _, n, _, _, h⟩ := yields_bind_ok.mp h
  obtain ⟨_, h⟩ := yields_ret.mp h
  cases h
  exact ⟨k, n, rfl⟩

/-- Exactly when `getUser` returns a user. -/
theorem yields_getUser_ok {uid : GoString} {tr : List Event} {u : User} (h : Yields (s.getUser P uid) tr (.ok u)) :
    ∃ b su, tr = [⟨.get uid dtUser, (.ok b : Except IoErr Bytes)⟩] ∧ (P.unmarshal b).bind SealedUser.ofJ = some su ∧
      su.unseal P s.userCryptor = .ok u := by
  rw [Standalone.getUser, Prog.bind_eq] at h
  obtain ⟨tr1, tr2, b, rfl, h1, h2⟩ := yields_bind_ok.mp h
  rcases yields_ioGet.mp h1 with ⟨b', rfl, hb⟩ | ⟨_, _, hb⟩ <;> cases hb
  cases hu : (P.unmarshal b).bind SealedUser.ofJ with
  | none => rw [hu] at h2; simp at h2
  | some su =>
    rw [hu] at h2
    simp only at h2
    cases hx : su.unseal P s.userCryptor with
    | error e => rw [hx] at h2; simp at h2
    | ok u' =>
      rw [hx] at h2
      obtain ⟨rfl, h2⟩ := yields_ret.mp h2
      cases h2
      exact ⟨b, su, rfl, hu, hx⟩

theorem yields_getGroup_ok {gid : GoString} {tr : List Event} {u : Group} (h : Yields (s.getGroup P gid) tr (.ok u)) :
    ∃ b su, tr = [⟨.get gid dtGroup, (.ok b : Except IoErr Bytes)⟩] ∧ (P.unmarshal b).bind SealedGroup.ofJ = some su ∧
      su.unseal P s.groupCryptor = .ok u := by
  rw [Standalone.getGroup, Prog.bind_eq] at h
  obtain ⟨tr1, tr2, b, rfl, h1, h2⟩ := yields_bind_ok.mp h
  rcases yields_ioGet.mp h1 with ⟨b', rfl, hb⟩ | ⟨_, _, hb⟩ <;> cases hb
  cases hu : (P.unmarshal b).bind SealedGroup.ofJ with
  | none => rw [hu] at h2; simp at h2
  | some su =>
    rw [hu] at h2
    simp only at h2
    cases hx : su.unseal P s.groupCryptor with
    | error e => rw [hx] at h2; simp at h2
    | ok u' =>
      rw [hx] at h2
      obtain ⟨rfl, h2⟩ := yields_ret.mp h2
      cases h2
      exact ⟨b, su, rfl, hu, hx⟩

include L in
/-- C42, partial: whatever bytes the IO Provider returns, if `getUser` accepts them, then the user it returns was sealed for the user ID
written in the record (contents and ID cannot be recombined), or the record is a forgery.  `sealed` is any collection of
executions of `User.seal` with the provider's key.  Missing from the full claim: the ID in the record is not compared with the ID that
was asked for (`C42_login_as_other`). -/
theorem C42_user_partial {sealed : GoString → User → SealedUser → Prop}
    (hs : ∀ uid u su, sealed uid u su → ∃ tr, Yields (u.seal P uid s.userCryptor) tr (.ok su))
    {asked : GoString} {tr : List Event} {u : User} (h : Yields (s.getUser P asked) tr (.ok u)) :
    ∃ b su, tr = [⟨.get asked dtUser, (.ok b : Except IoErr Bytes)⟩] ∧ (P.unmarshal b).bind SealedUser.ofJ = some su ∧
      ((∃ uid u' su', sealed uid u' su' ∧ (J.str uid).render = (J.str su.uid).render ∧
        u = { u' with groups := u'.groups.map sanList }) ∨
        UserForgery P s sealed su) := by
  obtain ⟨b, su, htr, hb, hu⟩ := yields_getUser_ok h
  refine ⟨b, su, htr, hb, ?_⟩
  by_cases hex : ∃ uid u su', sealed uid u su' ∧ su'.wrappedKey.bytes = su.wrappedKey.bytes ∧
    su'.ciphertext.bytes = su.ciphertext.bytes ∧ (J.str su'.uid).render = (J.str su.uid).render
  · left
    obtain ⟨uid, u', su', h1, h2, h3, h4⟩ := hex
    obtain ⟨_, hy⟩ := hs uid u' su' h1
    obtain ⟨k, n, rfl⟩ := yields_userSeal_ok L hy
    refine ⟨uid, u', _, h1, h4, ?_⟩
    rw [SealedUser.unseal, ← h2, ← h3, Cryptor.decrypt_ok_iff L] at hu
    obtain ⟨key, nonce, p, j, e1, e2, e3, e4⟩ := hu
    simp only [NBytes.bytes, Option.getD_some] at e1 e2 h4
    have hk : key = k := Subtype.ext (kwpBox_inj L _ _ _ key.2 k.2 e1.symm)
    subst hk
    have hd := gcmDecrypt_box L key.1 (J.str su.uid).render u'.toJ.render n key.2
    rw [← h4, e2, h4, gcmDecrypt_box L _ _ _ nonce key.2] at hd
    cases hd
    rw [L.unmarshal_render] at e3
    cases e3
    rw [User.ofJ_toJ] at e4
    exact (Option.some.inj e4).symm
  · exact .inr ⟨⟨u, hu⟩, hex⟩

include L in
/-- C42, partial: the same for groups. -/
theorem C42_group_partial {sealed : GoString → Group → SealedGroup → Prop}
    (hs : ∀ gid g sg, sealed gid g sg → ∃ tr, Yields (g.seal P gid s.groupCryptor) tr (.ok sg))
    {asked : GoString} {tr : List Event} {g : Group} (h : Yields (s.getGroup P asked) tr (.ok g)) :
    ∃ b sg, tr = [⟨.get asked dtGroup, (.ok b : Except IoErr Bytes)⟩] ∧ (P.unmarshal b).bind SealedGroup.ofJ = some sg ∧
      ((∃ gid sg', sealed gid g sg' ∧ (J.str gid).render = (J.str sg.gid).render) ∨ GroupForgery P s sealed sg) := by
  obtain ⟨b, su, htr, hb, hu⟩ := yields_getGroup_ok h
  refine ⟨b, su, htr, hb, ?_⟩
  by_cases hex : ∃ uid u su', sealed uid u su' ∧ su'.wrappedKey.bytes = su.wrappedKey.bytes ∧
    su'.ciphertext.bytes = su.ciphertext.bytes ∧ (J.str su'.gid).render = (J.str su.gid).render
  · left
    obtain ⟨uid, u', su', h1, h2, h3, h4⟩ := hex
    obtain ⟨_, hy⟩ := hs uid u' su' h1
    obtain ⟨k, n, rfl⟩ := yields_groupSeal_ok L hy
    rw [SealedGroup.unseal, ← h2, ← h3, Cryptor.decrypt_ok_iff L] at hu
    obtain ⟨key, nonce, p, j, e1, e2, e3, e4⟩ := hu
    simp only [NBytes.bytes, Option.getD_some] at e1 e2 h4
    have hk : key = k := Subtype.ext (kwpBox_inj L _ _ _ key.2 k.2 e1.symm)
    subst hk
    have hd := gcmDecrypt_box L key.1 (J.str su.gid).render u'.toJ.render n key.2
    rw [← h4, e2, h4, gcmDecrypt_box L _ _ _ nonce key.2] at hd
    cases hd
    rw [L.unmarshal_render] at e3
    cases e3
    have hg : Group.ofJ u'.toJ.san = some u' := Group.ofJ_toJ u'
    rw [hg] at e4
    cases e4
    exact ⟨uid, _, h1, h4⟩
  · exact .inr ⟨⟨g, hu⟩, hex⟩

include L in
/-- `SealedUser.verify`, for any record: it answers true exactly if the record holds a wrapped key, and an AES-GCM box under that key for
the user ID in the record, with a user in it.  So records that `seal` made are verified. -/
theorem C42_verify_user (c : Cryptor) (su : SealedUser) :
    (su.verify P c = true ↔ ∃ (key : BytesN 32) (nonce : BytesN 12) (p : Bytes) (j : J) (u : User),
      su.wrappedKey.bytes = kwpBox P c.kwp key.1 ∧
        su.ciphertext.bytes = gcmBox P key.1 nonce.1 (J.str su.uid).render p ∧ P.unmarshal p = some j ∧ User.ofJ j = some u) ∧
    ∀ uid u tr, Yields (User.seal P u uid c) tr (.ok su) → su.verify P c = true := by
  have h : su.verify P c = true ↔ ∃ u, su.unseal P c = .ok u := by
    rw [SealedUser.verify]
    cases su.unseal P c <;> simp [Except.toBool]
  have h1 : su.verify P c = true ↔ ∃ (key : BytesN 32) (nonce : BytesN 12) (p : Bytes) (j : J) (u : User),
      su.wrappedKey.bytes = kwpBox P c.kwp key.1 ∧
        su.ciphertext.bytes = gcmBox P key.1 nonce.1 (J.str su.uid).render p ∧ P.unmarshal p = some j ∧
          User.ofJ j = some u := by
    rw [h]
    simp only [SealedUser.unseal, Cryptor.decrypt_ok_iff L]
    constructor
    · rintro ⟨u, key, nonce, p, j, hh⟩; exact ⟨key, nonce, p, j, u, hh⟩
    · rintro ⟨key, nonce, p, j, u, hh⟩; exact ⟨u, key, nonce, p, j, hh⟩
  refine ⟨h1, fun uid u tr hy => h1.mpr ?_⟩
  obtain ⟨k, n, rfl⟩ := yields_userSeal_ok L hy
  exact ⟨k, n, _, _, _, rfl, rfl, L.unmarshal_render _, User.ofJ_toJ u⟩

include L in
/-- `SealedGroup.verify` likewise. -/
theorem C42_verify_group (c : Cryptor) (sg : SealedGroup) :
    (sg.verify P c = true ↔ ∃ (key : BytesN 32) (nonce : BytesN 12) (p : Bytes) (j : J) (g : Group),
      sg.wrappedKey.bytes = kwpBox P c.kwp key.1 ∧
        sg.ciphertext.bytes = gcmBox P key.1 nonce.1 (J.str sg.gid).render p ∧ P.unmarshal p = some j ∧ Group.ofJ j = some g) ∧
    ∀ gid g tr, Yields (Group.seal P g gid c) tr (.ok sg) → sg.verify P c = true := by
  have h : sg.verify P c = true ↔ ∃ g, sg.unseal P c = .ok g := by
    rw [SealedGroup.verify]
    cases sg.unseal P c <;> simp [Except.toBool]
  have h1 : sg.verify P c = true ↔ ∃ (key : BytesN 32) (nonce : BytesN 12) (p : Bytes) (j : J) (g : Group),
      sg.wrappedKey.bytes = kwpBox P c.kwp key.1 ∧
        sg.ciphertext.bytes = gcmBox P key.1 nonce.1 (J.str sg.gid).render p ∧ P.unmarshal p = some j ∧
          Group.ofJ j = some g := by
    rw [h]
    simp only [SealedGroup.unseal, Cryptor.decrypt_ok_iff L]
    constructor
    · rintro ⟨u, key, nonce, p, j, hh⟩; exact ⟨key, nonce, p, j, u, hh⟩
    · rintro ⟨key, nonce, p, j, u, hh⟩; exact ⟨u, key, nonce, p, j, hh⟩
  refine ⟨h1, fun gid g tr hy => h1.mpr ?_⟩
  obtain ⟨k, n, rfl⟩ := yields_groupSeal_ok L hy
  exact ⟨k, n, _, _, _, rfl, rfl, L.unmarshal_render _, Group.ofJ_toJ g⟩

/-! ## C43 -/

include L in
/-- C43 is false of the code when D1 and the Standalone provider are given the same token key: the string of a token that
`D1.CreateToken` made with the bytes of a user ID as contents is accepted by `GetIdentity` as a token of that user. -/
theorem C43_same_key {d : D1} (hkey : d.tokenCryptor = s.tokenCryptor) {uid : GoString} {tok : SealedToken} {w w' : World}
    (h : (d.createToken P (some uid)).run env w = (.ok tok, w')) (env' : Env) (w2 : World)
    (hnow : (env'.now w2.t).ns ≤ (env.now w.t).ns + 3600 * 1000000000) :
    (s.getIdentity P (tok.string P)).run env' w2 = (s.lookup P uid).run env' (w2.next w2.store) := by
  rw [createToken_eq, hkey] at h
  obtain ⟨_, k, n, rfl⟩ := run_mint_ok L h
  rw [run_getIdentity_string L env' w2, if_pos]
  · rfl
  · exact hnow

include L in
/-- C43, partial: `logins` is any collection of successful executions of `LoginUser` of this provider.  A string accepted by
`GetIdentity` as user `i.id` holds a token that `LoginUser` made for `i.id`, or a token that the token cryptor accepts although no login
made it.  Missing from the full claim: with a shared token key, tokens of `D1.CreateToken` are of the second kind
(`C43_same_key`); with different keys they are forgeries of the key wrapping. -/
theorem C43_login_only_partial {logins : GoString → GoString → Int → Prop}
    (hl : ∀ uid str exp, logins uid str exp → ∃ pwd tr, Yields (s.loginUser P uid pwd) tr (.ok (str, exp)))
    {str : GoString} {tr : List Event} {i : Identity} (h : Yields (s.getIdentity P str) tr (.ok i)) :
    ∃ t, tokenFromString P str = .ok t ∧
      ((∃ (t' : SealedToken) (exp : Int), logins i.id (t'.string P) exp ∧ t'.expiryTime.ns = t.expiryTime.ns) ∨
        TokenForgery P s.tokenCryptor (fun t' => ∃ uid exp, logins uid (t'.string P) exp) t) := by
  obtain ⟨t, now, tr', h1, _, _, h2⟩ := C24_identity L hl h
  refine ⟨t, h1, ?_⟩
  rcases h2 with ⟨t', exp, h3, h4, _⟩ | h2
  · exact .inl ⟨t', exp, h3, h4⟩
  · exact .inr h2

include L in
/-- C43 with different token keys: if a `D1.CreateToken` token is accepted by `GetIdentity`, then unwrapping with the Standalone key
accepted a key wrapped with the D1 key. -/
theorem C43_other_key {d : D1} {contents : NBytes} {tok : SealedToken} {tr tr' : List Event} {i : Identity}
    (h : Yields (d.createToken P contents) tr (.ok tok)) (hg : Yields (s.getIdentity P (tok.string P)) tr' (.ok i)) :
    ∃ k k' : BytesN 32, kwpBox P d.tokenCryptor.kwp k.1 = kwpBox P s.tokenCryptor.kwp k'.1 := by
  rw [createToken_eq] at h
  obtain ⟨now, k, n, _, rfl⟩ := (yields_mint_ok L).mp h
  obtain ⟨t, _, _, p, ht, _, _, hd, _⟩ := yields_getIdentity_ok hg
  obtain ⟨t', ht', hk, _⟩ := C25_roundtrip L (sealedTok P d.tokenCryptor contents (now.add tokenValidity) k n)
  rw [ht] at ht'
  cases ht'
  obtain ⟨k', _, _, _, hw, _⟩ := (Cryptor.decrypt_ok_iff L _ _ _ _ _ _).mp hd
  rw [hk] at hw
  exact ⟨k, k', hw⟩

/-! ## C44 -/

theorem userOfJ_nodup {j : J} {u : User} (h : User.ofJ j = some u) : (u.groups.getD []).Nodup := by
  rw [User.ofJ] at h
  simp only [Option.bind_eq_bind, Option.bind_eq_some_iff, Option.pure_def, Option.some.injEq] at h
  obtain ⟨fs, _, _, _, _, _, g, hg, rfl⟩ := h
  simp only
  rw [field] at hg
  split at hg
  · cases hg; exact List.nodup_nil
  · rename_i v _
    cases v <;> simp only [J.toSet, reduceCtorEq, Option.some.injEq, Option.map_eq_some_iff] at hg
    · subst hg; exact List.nodup_nil
    · obtain ⟨ks, _, rfl⟩ := hg
      exact foldl_setInsert_nodup _ List.nodup_nil

theorem returns_ioGet {f : IoErr → Err} {id : Bytes} {dt : DataType} : AllOut (Returns fun _ => True) (ioGet f id dt) := by
  intro r
  rcases r with r | r <;> trivial

/-- Whatever is stored, `GetIdentity` returns an identity with a proper group map, or an error. -/
theorem returns_getIdentity (token : GoString) :
    AllOut (Returns fun i => (i.groups.map Prod.fst).Nodup) (s.getIdentity P token) := by
  unfold Standalone.getIdentity
  split
  · trivial
  · rename_i st _
    refine returns_attempt (R := fun _ => True) ?_ (fun t _ => ?_) (fun _ => trivial)
    · intro now
      show AllOut _ (if _ then _ else _)
      split
      · trivial
      · cases s.tokenCryptor.decrypt P J.toBytes (.ofTime P st.expiryTime) st.wrappedKey.bytes st.ciphertext.bytes <;> trivial
    · have hu : AllOut (Returns fun u => (u.groups.getD []).Nodup) (s.getUser P t.plaintext.bytes) := by
        refine returns_bind (R := fun _ => True) returns_ioGet fun b _ => ?_
        cases (P.unmarshal b).bind SealedUser.ofJ with
        | none => trivial
        | some su =>
          refine returns_ofExcept fun u hu => ?_
          simp only [SealedUser.unseal, Cryptor.decrypt] at hu
          split at hu; · cases hu
          split at hu; · cases hu
          split at hu; · cases hu
          rename_i hv
          cases hu
          obtain ⟨_, _, hv⟩ := Option.bind_eq_some_iff.mp hv
          exact userOfJ_nodup hv
      have hgs : ∀ l : List GoString, AllOut (Returns fun gs => gs.map Prod.fst = l) (s.fetchGroups P l) := by
        intro l
        induction l with
        | nil => exact rfl
        | cons g l ih =>
          have hg : AllOut (Returns fun _ => True) (s.getGroup P g) := by
            refine returns_bind (R := fun _ => True) returns_ioGet fun b _ => ?_
            cases (P.unmarshal b).bind SealedGroup.ofJ with
            | none => trivial
            | some sg => exact returns_ofExcept fun _ _ => trivial
          exact returns_bind hg fun _ _ => returns_bind ih fun gs hgs => congrArg (g :: ·) hgs
      exact returns_bind hu fun u hn => returns_bind (hgs _) fun gs hgs => by
        show (gs.map Prod.fst).Nodup
        rw [hgs]; exact hn

/-- The Standalone provider is an Identity Provider as D1 needs it, whatever is stored. -/
theorem standalone_idpOk {d : D1} (hd : d.idProvider = s.getIdentity P) (env : Env) : IdpOk d env := by
  intro token w
  rw [hd]
  refine ⟨fun id => ⟨?_, ?_⟩, ?_⟩
  · exact (allEff_getIdentity (by simp [Eff.target]) (by simp [Eff.target]) (by simp [Eff.target]) token).frame_run env w
  · exact (allEff_getIdentity (by simp [Eff.target]) (by simp [Eff.target]) (by simp [Eff.target]) token).frame_run env w
  · have := (returns_getIdentity (P := P) (s := s) token).run env w
    cases h : ((s.getIdentity P token).run env w).1 with
    | ok i => rw [h] at this; exact .inl ⟨i, rfl, this⟩
    | err e => exact .inr ⟨e, rfl⟩
    | panic => rw [h] at this; exact this.elim
    | diverge => rw [h] at this; exact this.elim

/-- It writes nothing, so the crash and failure theorems of D1 apply to it. -/
theorem standalone_reads {d : D1} (hd : d.idProvider = s.getIdentity P) (env : Env) : IdpReads d env := by
  intro token w n
  rw [hd]
  funext id dt
  exact (allEff_getIdentity (by simp [Eff.target]) (by simp [Eff.target]) (by simp [Eff.target]) token).frame env n w

/-- D1 calls leave users and groups alone. -/
theorem call_frame {d : D1} (hd : d.idProvider = s.getIdentity P) (env : Env) (w : World) (c : Call) (x : Bytes) :
    ((callProg P d c).run env w).2.store x dtUser = w.store x dtUser ∧
      ((callProg P d c).run env w).2.store x dtGroup = w.store x dtGroup := by
  have key : ∀ dt, dt = dtUser ∨ dt = dtGroup → AllEff (fun e => e.target ≠ some (x, dt)) (callProg P d c) := by
    intro dt hdt
    refine allEff_call c ?_ (by simp [Eff.target]) fun e dt' h1 h2 _ => ?_
    · rw [hd]
      exact allEff_getIdentity (by simp [Eff.target]) (by simp [Eff.target]) (by simp [Eff.target]) _
    · intro ht
      cases e <;> simp only [Eff.target, Eff.dataType, Option.some.injEq, Prod.mk.injEq, reduceCtorEq] at h1 ht
      all_goals
        rw [← h1, ht.2] at h2
        rcases hdt with rfl | rfl <;> revert h2 <;> decide
  exact ⟨(key _ (.inl rfl)).frame_run env w, (key _ (.inr rfl)).frame_run env w⟩

/-- A call of the combined system: D1 with the Standalone provider as its Identity Provider, over one IO Provider. -/
inductive SysCall where
  | d1 (c : Call)
  | dir (c : DirCall)

/-- What a caller sees. -/
inductive SysRes where
  | d1 (r : Outcome Res)
  | dir (r : Outcome DirRes)

/-- What the directory says about a caller. -/
def dirCaller (v : Dir) (who : Option GoString) : Option Identity := match v.identify who with
  | .ok x => some (dirIdentity v x)
  | .error _ => none

/-- Run one call. -/
def sysRun (P : Prims) (d : D1) (s : Standalone) (env : Env) (w : World) : SysCall → SysRes × World
  | .d1 c => (.d1 ((callProg P d c).run env w).1, ((callProg P d c).run env w).2)
  | .dir c => (.dir ((dirProg P s c).run env w).1, ((dirProg P s c).run env w).2)

/-- One call in the specification: a directory and a vault.  The vault knows the caller by what the directory says. -/
def sysStep (v : Dir × Vault) (inp : DirIn) (who : Option GoString) (fresh : Oid) : SysCall → SysRes × (Dir × Vault)
  | .d1 c => (.d1 (toOutcome (step sanitize v.2 (dirCaller v.1 who) fresh c).1), (v.1, (step sanitize v.2 (dirCaller v.1 who) fresh c).2))
  | .dir c => (.dir (toOutcome (dirStep v.1 inp c).1), ((dirStep v.1 inp c).2, v.2))

/-- Run calls one after the other. -/
def sysHist (P : Prims) (d : D1) (s : Standalone) (env : Env) : World → List SysCall → List SysRes
  | _, [] => []
  | w, c :: r => (sysRun P d s env w c).1 :: sysHist P d s env (sysRun P d s env w c).2 r

def sysAfter (P : Prims) (d : D1) (s : Standalone) (env : Env) : World → List SysCall → World
  | w, [] => w
  | w, c :: r => sysAfter P d s env (sysRun P d s env w c).2 r

/-- The inputs from outside of a call in a world. -/
structure SysIn where
  dir : DirIn
  who : Option GoString
  fresh : Oid

def sysIn (P : Prims) (d : D1) (s : Standalone) (env : Env) (w : World) : SysCall → SysIn
  | .d1 c => ⟨dirIn P s env w (.getIdentity c.token), tokenUser P s.tokenCryptor c.token (env.now w.t).ns, freshOid d env w c.token⟩
  | .dir c => ⟨dirIn P s env w c, none, mkV4 (drawn env w.t 16)⟩

def sysAnnotate (P : Prims) (d : D1) (s : Standalone) (env : Env) : World → List SysCall → List (SysIn × SysCall)
  | _, [] => []
  | w, c :: r => (sysIn P d s env w c, c) :: sysAnnotate P d s env (sysRun P d s env w c).2 r

def sysSpecHist : Dir × Vault → List (SysIn × SysCall) → List SysRes
  | _, [] => []
  | v, (i, c) :: r => (sysStep v i.dir i.who i.fresh c).1 :: sysSpecHist (sysStep v i.dir i.who i.fresh c).2 r

def sysSpecAfter : Dir × Vault → List (SysIn × SysCall) → Dir × Vault
  | v, [] => v
  | v, (i, c) :: r => sysSpecAfter (sysStep v i.dir i.who i.fresh c).2 r

/-- The store represents the directory and the vault. -/
def SysRel (P : Prims) (d : D1) (s : Standalone) (st : Store) (v : Dir × Vault) : Prop := DirRel P s st v.1 ∧ Rel P d st v.2

include L in
theorem whoIs_standalone {d : D1} (hd : d.idProvider = s.getIdentity P) (hf : NoFault env) {v : Dir} {w : World}
    (h : DirRel P s w.store v) (token : GoString) :
    whoIs d env w token = dirCaller v (tokenUser P s.tokenCryptor token (env.now w.t).ns) := by
  obtain ⟨w', _, h1⟩ := run_getIdentity L hf h token
  rw [whoIs, hd, h1, dirCaller]
  cases v.identify (tokenUser P s.tokenCryptor token (env.now w.t).ns) <;> rfl

include L in
/-- One call of the combined system is one step of its specification. -/
theorem run_sysCall {d : D1} (hd : d.idProvider = s.getIdentity P) (hf : NoFault env) (hr : RandOk env) {v : Dir × Vault} {w : World}
    (h : SysRel P d s w.store v) (c : SysCall) :
    (sysRun P d s env w c).1 = (sysStep v (sysIn P d s env w c).dir (sysIn P d s env w c).who (sysIn P d s env w c).fresh c).1 ∧
    SysRel P d s (sysRun P d s env w c).2.store
      (sysStep v (sysIn P d s env w c).dir (sysIn P d s env w c).who (sysIn P d s env w c).fresh c).2 := by
  cases c with
  | d1 c =>
    obtain ⟨w', h1, h2⟩ := run_call L hf hr (standalone_idpOk hd env) h.2 c
    have hfr := call_frame hd env w c
    rw [whoIs_standalone L hd hf h.1] at h1 h2
    simp only [sysRun, sysStep, sysIn]
    rw [h1] at hfr ⊢
    exact ⟨rfl, h.1.congr hfr, h2⟩
  | dir c =>
    obtain ⟨w', h1, h2, h3⟩ := run_dirCall L hf hr h.1 c
    simp only [sysRun, sysStep, sysIn]
    rw [h1]
    exact ⟨rfl, h2, Rel.congr h3 h.2⟩

include L in
/-- C44: with D1 on top of the Standalone provider over one IO Provider, any interleaved sequence of D1 and Standalone calls gives the
results of a directory and a vault side by side, where the vault's caller is what the directory says at the moment of the call: every
membership change is in force from the next call on. -/
theorem C44_system {d : D1} (hd : d.idProvider = s.getIdentity P) (hf : NoFault env) (hr : RandOk env) (calls : List SysCall)
    {v : Dir × Vault} {w : World} (h : SysRel P d s w.store v) :
    sysHist P d s env w calls = sysSpecHist v (sysAnnotate P d s env w calls) ∧
    SysRel P d s (sysAfter P d s env w calls).store (sysSpecAfter v (sysAnnotate P d s env w calls)) := by
  induction calls generalizing v w with
  | nil => exact ⟨rfl, h⟩
  | cons c r ih =>
    obtain ⟨h1, h2⟩ := run_sysCall L hd hf hr h c
    obtain ⟨h3, h4⟩ := ih h2
    exact ⟨by simp only [sysHist, sysAnnotate, sysSpecHist]; rw [h1, h3], h4⟩

theorem sysRel_empty {d : D1} {st : Store} (h : ∀ x dt, st x dt = none) : SysRel P d s st (emptyDir, emptyVault) :=
  ⟨dirRel_empty fun x => ⟨h x _, h x _⟩, rel_empty P d st fun x => ⟨h x _, h x _⟩⟩

/-- Who may read an object: the user itself holds the Decrypt scope, all its groups exist, and it is on the object's access list itself
or through one of its groups that holds the Decrypt scope too. -/
def MayRead (v : Dir × Vault) (uid : GoString) (oid : Oid) (o : Object) : Prop :=
  ∃ u e, v.1.users uid = some u ∧ (∀ g ∈ u.groups, (v.1.groups g).isSome) ∧ scopeIn scopeDecrypt u.scopes ∧ v.2 oid = some e ∧
    e.object = o ∧ (e.members uid ∨ ∃ g ∈ u.groups, e.members g ∧ ∃ sc, v.1.groups g = some sc ∧ scopeIn scopeDecrypt sc)

theorem mayRead_iff {v : Dir × Vault} {uid : GoString} {oid fresh : Oid} {t : GoString} {o : Object} :
    (step sanitize v.2 (dirCaller v.1 (some uid)) fresh (.decrypt t oid)).1 = .ok (.object o) ↔ MayRead v uid oid o := by
  unfold MayRead
  cases hu : v.1.users uid with
  | none =>
    have hc : dirCaller v.1 (some uid) = none := by simp [dirCaller, Dir.identify, hu]
    simp [step, guarded, authenticate, hc]
  | some u =>
    by_cases hg : ∀ g ∈ u.groups, (v.1.groups g).isSome
    · have hc : dirCaller v.1 (some uid) = some (dirIdentity v.1 (uid, u)) := by
        have : (u.groups.all fun g => (v.1.groups g).isSome) = true := List.all_eq_true.mpr hg
        simp only [dirCaller, Dir.identify, hu, this, if_true]
      simp only [step, guarded, authenticate, hc, dirIdentity]
      by_cases hs : scopeIn scopeDecrypt u.scopes = true
      · simp only [hs, if_true]
        cases he : v.2 oid with
        | none => simp
        | some e =>
          simp only
          have ha : allowed ⟨uid, u.scopes, u.groups.map fun g => (g, ⟨g, (v.1.groups g).getD 0⟩)⟩ scopeDecrypt e.members = true ↔
              (e.members uid = true ∨ ∃ g ∈ u.groups, e.members g = true ∧ ∃ sc, v.1.groups g = some sc ∧ scopeIn scopeDecrypt sc = true) := by
            simp only [allowed, hs, Bool.and_true, Bool.or_eq_true, List.any_map, List.any_eq_true, Function.comp_apply,
              Bool.and_eq_true, bne_iff_ne, ne_eq]
            constructor
            · rintro (h | ⟨g, hgm, ⟨-, hm⟩, hsc⟩)
              · exact .inl h
              · obtain ⟨sc, hsc'⟩ := Option.isSome_iff_exists.mp (hg g hgm)
                rw [hsc'] at hsc
                exact .inr ⟨g, hgm, hm, sc, hsc', hsc⟩
            · rintro (h | ⟨g, hgm, hm, sc, hsc', hsc⟩)
              · exact .inl h
              · by_cases hgu : g = uid
                · exact .inl (hgu ▸ hm)
                · exact .inr ⟨g, hgm, ⟨hgu, hm⟩, by rw [hsc']; exact hsc⟩
          by_cases h : allowed ⟨uid, u.scopes, u.groups.map fun g => (g, ⟨g, (v.1.groups g).getD 0⟩)⟩ scopeDecrypt e.members = true
          · rw [if_pos h]
            simp only [Except.ok.injEq, Res.object.injEq]
            exact ⟨fun h' => ⟨u, e, rfl, hg, hs, rfl, h', ha.mp h⟩, fun ⟨_, _, _, _, _, h1, h2, _⟩ => by cases h1; exact h2⟩
          · rw [if_neg h]
            simp only [reduceCtorEq, false_iff]
            rintro ⟨u', e', h1, _, _, h2, _, h3⟩
            cases h1; cases h2
            exact h (ha.mpr h3)
      · simp only [hs, if_false, Bool.false_eq_true]
        simp only [reduceCtorEq, false_iff]
        rintro ⟨u', e', h1, _, h2, _⟩
        cases h1
        exact hs h2
    · have hc : dirCaller v.1 (some uid) = none := by
        have : ¬ (u.groups.all fun g => (v.1.groups g).isSome) = true := fun h => hg (List.all_eq_true.mp h)
        simp only [dirCaller, Dir.identify, hu, this, if_false, Bool.false_eq_true]
      simp only [step, guarded, authenticate, hc, reduceCtorEq, false_iff]
      rintro ⟨u', e', h1, h2, _⟩
      cases h1
      exact hg h2

include L in
/-- C44: at any moment, Decrypt with a valid token of a user returns an object exactly when the directory and the access list, as they are
at that moment, let that user read it. -/
theorem C44_decrypt_iff {d : D1} (hd : d.idProvider = s.getIdentity P) (hf : NoFault env) (hr : RandOk env) {v : Dir × Vault} {w : World}
    (h : SysRel P d s w.store v) {token uid : GoString} (ht : tokenUser P s.tokenCryptor token (env.now w.t).ns = some uid)
    (oid : Oid) (o : Object) : (∃ w', (d.decrypt P token oid).run env w = (.ok o, w')) ↔ MayRead v uid oid o := by
  obtain ⟨h1, -⟩ := run_sysCall L hd hf hr h (.d1 (.decrypt token oid))
  simp only [sysRun, sysStep, sysIn, SysRes.d1.injEq, Call.token] at h1
  rw [ht] at h1
  rw [← mayRead_iff (t := token) (fresh := freshOid d env w token)]
  simp only [callProg] at h1
  constructor
  · rintro ⟨w', hw⟩
    rw [Prog.run_bind_ok env hw] at h1
    cases hs : (step sanitize v.2 (dirCaller v.1 (some uid)) (freshOid d env w token) (.decrypt token oid)).1 with
    | ok r => rw [hs] at h1; simp only [run_ret, toOutcome, Outcome.ok.injEq] at h1; rw [← h1]
    | error e => rw [hs] at h1; simp [run_ret, toOutcome] at h1
  · intro hs
    rw [hs] at h1
    cases hrun : (d.decrypt P token oid).run env w with
    | mk r w' =>
      cases r with
      | ok o' =>
        rw [Prog.run_bind_ok env hrun] at h1
        simp only [run_ret, toOutcome, Outcome.ok.injEq, Res.object.injEq] at h1
        exact ⟨w', by rw [h1]⟩
      | err e => rw [Prog.run_bind_err env hrun] at h1; simp [toOutcome] at h1
      | panic => rw [Prog.run_bind, hrun] at h1; simp [toOutcome] at h1
      | diverge => rw [Prog.run_bind, hrun] at h1; simp [toOutcome] at h1

include L in
/-- C44: once AddUserToGroups has succeeded for a group that is on the object's access list with the Decrypt scope, the user (with the
Decrypt scope itself and with all its groups existing) gets the object with its next call. -/
theorem C44_added {d : D1} (hd : d.idProvider = s.getIdentity P) (hf : NoFault env) (hr : RandOk env) {v : Dir × Vault} {w w1 : World}
    (h : SysRel P d s w.store v) {admin uid : GoString} {gids : List GoString}
    (hadd : (s.addUserToGroups P admin uid gids).run env w = (.ok (), w1))
    {u : DirUser} (hu : v.1.users uid = some u) (hgs : ∀ g ∈ u.groups, (v.1.groups g).isSome) (hgs' : ∀ g ∈ gids, (v.1.groups g).isSome)
    (hsc : scopeIn scopeDecrypt u.scopes) {oid : Oid} {e : Entry} (he : v.2 oid = some e)
    {g : GoString} (hg : g ∈ gids) (hm : e.members g) {sc : Scope} (hgsc : v.1.groups g = some sc) (hsc' : scopeIn scopeDecrypt sc)
    {token : GoString} (ht : tokenUser P s.tokenCryptor token (env.now w1.t).ns = some uid) :
    ∃ w', (d.decrypt P token oid).run env w1 = (.ok e.object, w') := by
  obtain ⟨w', h1, h2, h3⟩ := run_dirCall L hf hr h.1 (.addUser admin uid gids)
  simp only [dirProg] at h1
  rw [Prog.run_bind_ok env hadd] at h1
  simp only [run_ret, Prod.mk.injEq] at h1
  obtain ⟨h1, rfl⟩ := h1
  have hstep : (dirStep v.1 (dirIn P s env w (.addUser admin uid gids)) (.addUser admin uid gids)).2 =
      v.1.setUser uid (some { u with groups := addAll u.groups gids }) := by
    revert h1
    simp only [dirStep, Dir.asCaller]
    split
    · simp [toOutcome]
    · rw [hu]
      split
      · intro _; rfl
      · simp [toOutcome]
  rw [hstep] at h2
  refine (C44_decrypt_iff L hd hf hr (v := (_, v.2)) ⟨h2, Rel.congr h3 h.2⟩ ht oid e.object).mpr ?_
  refine ⟨{ u with groups := addAll u.groups gids }, e, if_pos rfl, ?_, hsc, he, rfl, .inr ⟨g, ?_, hm, sc, hgsc, hsc'⟩⟩
  · intro x hx
    simp only [addAll_eq, mem_foldl_setInsert] at hx
    exact hx.elim (hgs x) (hgs' x)
  · simp only [addAll_eq, mem_foldl_setInsert]; exact .inr hg

include L in
/-- C44: once RemoveUserFromGroups has succeeded and neither the user nor a group it is still in is on the object's access list, the user's
next call does not return the object. -/
theorem C44_removed {d : D1} (hd : d.idProvider = s.getIdentity P) (hf : NoFault env) (hr : RandOk env) {v : Dir × Vault} {w w1 : World}
    (h : SysRel P d s w.store v) {admin uid : GoString} {gids : List GoString}
    (hrem : (s.removeUserFromGroups P admin uid gids).run env w = (.ok (), w1))
    {u : DirUser} (hu : v.1.users uid = some u) {oid : Oid} {e : Entry} (he : v.2 oid = some e) (hm : e.members uid = false)
    (hg : ∀ g ∈ u.groups, e.members g → g ∈ gids)
    {token : GoString} (ht : tokenUser P s.tokenCryptor token (env.now w1.t).ns = some uid) (o : Object) (w' : World) :
    (d.decrypt P token oid).run env w1 ≠ (.ok o, w') := by
  intro hrun
  obtain ⟨w2, h1, h2, h3⟩ := run_dirCall L hf hr h.1 (.removeUser admin uid gids)
  simp only [dirProg] at h1
  rw [Prog.run_bind_ok env hrem] at h1
  simp only [run_ret, Prod.mk.injEq] at h1
  obtain ⟨h1, rfl⟩ := h1
  have hstep : (dirStep v.1 (dirIn P s env w (.removeUser admin uid gids)) (.removeUser admin uid gids)).2 =
      v.1.setUser uid (some { u with groups := u.groups.filter fun g => !gids.contains g }) := by
    revert h1
    simp only [dirStep, Dir.asCaller]
    split
    · simp [toOutcome]
    · rw [hu]
      split
      · intro _; rfl
      · simp [toOutcome]
  rw [hstep] at h2
  obtain ⟨u', e', hu', -, -, he', -, hmem⟩ :=
    (C44_decrypt_iff L hd hf hr (v := (_, v.2)) ⟨h2, Rel.congr h3 h.2⟩ ht oid o).mp ⟨w', hrun⟩
  simp only [if_true, Option.some.injEq] at hu'
  subst hu'
  rw [he] at he'
  cases he'
  rcases hmem with hmem | ⟨g, hg1, hg2, -⟩
  · rw [hm] at hmem; cases hmem
  · obtain ⟨hg3, hg4⟩ := List.mem_filter.mp hg1
    have := hg g hg3 hg2
    simp [this] at hg4

end

end D1
