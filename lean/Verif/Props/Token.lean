import Verif.Props.Binding
/-!
# Tokens: C23, C24, C25, C26

`CreateToken` and `LoginUser` both seal a new token with a token cryptor (`mint`); the string form travels through the caller.
-/
namespace D1
open Prog

/-- A fresh token with these contents. -/
def mint (P : Prims) (c : Cryptor) (contents : NBytes) : Prog SealedToken :=
  (newToken contents tokenValidity).bind fun t => t.seal P c

/-- The sealed form of a token under a drawn key and nonce. -/
def sealedTok (P : Prims) (c : Cryptor) (contents : NBytes) (expiry : GoTime) (k : BytesN 32) (n : BytesN 12) : SealedToken :=
  ⟨expiry, some (gcmBox P k.1 n.1 (J.ofTime P expiry).render (J.ofBytes contents).render), some (kwpBox P c.kwp k.1)⟩

/-- What `GetIdentity` does once it knows the user ID. -/
def Standalone.lookup (P : Prims) (s : Standalone) (uid : GoString) : Prog Identity :=
  (s.getUser P uid).bind fun user => (s.fetchGroups P (user.groups.getD [])).bind fun groups => .ret ⟨uid, user.scopes, groups⟩

section
variable {P : Prims} (L : P.Laws)

theorem createToken_eq (d : D1) (contents : NBytes) : d.createToken P contents = mint P d.tokenCryptor contents := rfl

include L in
theorem mint_eq (c : Cryptor) (contents : NBytes) : mint P c contents = timeNow.bind fun now =>
    (randBytes 32).bind fun k => (randBytes 12).bind fun n => .ret (sealedTok P c contents (now.add tokenValidity) k n) := by
  simp only [mint, newToken, Token.seal, Prog.bind_eq, Prog.pure_eq, Prog.bind_assoc, Prog.ret_bind, Cryptor.encrypt_eq L, sealedTok]

include L in
theorem run_mint_ok {env : Env} {c : Cryptor} {contents : NBytes} {w w' : World} {tok : SealedToken}
    (h : (mint P c contents).run env w = (.ok tok, w')) :
    w' = ⟨w.store, w.t + 3⟩ ∧ ∃ k n, tok = sealedTok P c contents ((env.now w.t).add tokenValidity) k n := by
  rw [mint_eq L] at h
  rw [Prog.run_bind_ok env (run_timeNow w)] at h
  obtain ⟨k, w1, h1, h⟩ := (Prog.run_bind_ok_iff env).mp h
  obtain ⟨n, w2, h2, h⟩ := (Prog.run_bind_ok_iff env).mp h
  obtain ⟨_, rfl⟩ := run_randBytes_ok h1
  obtain ⟨_, rfl⟩ := run_randBytes_ok h2
  simp only [Prog.run_ret, Prod.mk.injEq, Outcome.ok.injEq] at h
  exact ⟨h.2.symm, k, n, h.1.symm⟩

theorem run_unseal (env : Env) (w : World) (c : Cryptor) (tok : SealedToken) :
    (tok.unseal P c).run env w = (if tok.expiryTime.ns < (env.now w.t).ns then .err .tokenExpired else
      match c.decrypt P J.toBytes (.ofTime P tok.expiryTime) tok.wrappedKey.bytes tok.ciphertext.bytes with
      | .error e => .err e
      | .ok p => .ok ⟨p, tok.expiryTime⟩, w.next w.store) := by
  rw [SealedToken.unseal, Prog.bind_eq, Prog.run_bind_ok env (run_timeNow w)]
  simp only [GoTime.before, decide_eq_true_eq]
  split
  · rfl
  · cases c.decrypt P J.toBytes (.ofTime P tok.expiryTime) tok.wrappedKey.bytes tok.ciphertext.bytes <;> rfl

include L in
theorem decrypt_sealedTok (c : Cryptor) (contents : NBytes) (expiry expiry' : GoTime) (he : P.timeText expiry' = P.timeText expiry)
    (k : BytesN 32) (n : BytesN 12) :
    c.decrypt P J.toBytes (.ofTime P expiry') (sealedTok P c contents expiry k n).wrappedKey.bytes
      (sealedTok P c contents expiry k n).ciphertext.bytes = .ok contents := by
  have hr : J.ofTime P expiry' = J.ofTime P expiry := by simp only [J.ofTime, he]
  simp only [sealedTok, NBytes.bytes, Option.getD_some]
  rw [hr, Cryptor.decrypt_box L]
  simp

theorem run_mapErr_ok {α : Type} {env : Env} {p : Prog α} {e : Err} {w w' : World} {a : α} :
    (p.mapErr e).run env w = (.ok a, w') ↔ p.run env w = (.ok a, w') := by
  rw [Prog.mapErr, Prog.run_attempt]
  cases h : p.run env w with
  | mk o w1 => cases o <;> simp

theorem run_getUser_ok {s : Standalone} {env : Env} {uid : GoString} {w w' : World} {u : User}
    (h : (s.getUser P uid).run env w = (.ok u, w')) : w' = w.next w.store ∧
      ∃ b su, w.store uid dtUser = some b ∧ (P.unmarshal b).bind SealedUser.ofJ = some su ∧ su.unseal P s.userCryptor = .ok u := by
  rw [Standalone.getUser, Prog.bind_eq] at h
  obtain ⟨b, w1, h1, h2⟩ := (Prog.run_bind_ok_iff env).mp h
  obtain ⟨hs, rfl⟩ := run_ioGet_ok h1
  cases hu : (P.unmarshal b).bind SealedUser.ofJ with
  | none => rw [hu] at h2; simp at h2
  | some su =>
    rw [hu] at h2
    simp only at h2
    cases hx : su.unseal P s.userCryptor with
    | error e => rw [hx] at h2; simp at h2
    | ok u' =>
      rw [hx] at h2
      simp only [Prog.ofExcept_ok, Prog.run_ret, Prod.mk.injEq, Outcome.ok.injEq] at h2
      obtain ⟨rfl, rfl⟩ := h2
      exact ⟨rfl, b, su, hs, hu, hx⟩

theorem run_authenticate_ok {env : Env} {u : User} {pwd : GoString} {w w' : World}
    (h : (u.authenticate P pwd).run env w = (.ok (), w')) : w' = w ∧ comparePassword P pwd u.saltAndHash.bytes = some true := by
  rw [User.authenticate, Prog.bind_eq] at h
  cases hc : comparePassword P pwd u.saltAndHash.bytes with
  | none => rw [hc] at h; simp at h
  | some b =>
    rw [hc] at h
    cases b with
    | false => simp at h
    | true => simp at h; exact ⟨h.symm, rfl⟩

include L in
/-- What a successful `LoginUser` did. -/
theorem run_loginUser_ok {s : Standalone} {env : Env} {w w' : World} {uid pwd str : GoString} {exp : Int}
    (h : (s.loginUser P uid pwd).run env w = (.ok (str, exp), w')) :
    ∃ user k n, (s.getUser P uid).run env w = (.ok user, w.next w.store) ∧
      comparePassword P pwd user.saltAndHash.bytes = some true ∧
      str = (sealedTok P s.tokenCryptor (some uid) ((env.now (w.t + 1)).add tokenValidity) k n).string P ∧
      exp = ((env.now (w.t + 1)).add tokenValidity).unix ∧ w' = ⟨w.store, w.t + 4⟩ := by
  rw [Standalone.loginUser, Prog.bind_eq] at h
  obtain ⟨user, w1, hu, h⟩ := (Prog.run_bind_ok_iff env).mp h
  obtain ⟨_, w2, ha, h⟩ := (Prog.run_bind_ok_iff env).mp h
  rw [run_mapErr_ok] at hu ha
  obtain ⟨rfl, hu2⟩ := run_getUser_ok hu
  obtain ⟨rfl, hc⟩ := run_authenticate_ok ha
  obtain ⟨tok, w3, ht, h⟩ := (Prog.run_bind_ok_iff env).mp h
  obtain ⟨st, w4, hst, h⟩ := (Prog.run_bind_ok_iff env).mp h
  rw [run_mapErr_ok] at hst
  have hm : (mint P s.tokenCryptor (some uid)).run env (w.next w.store) = (.ok st, w4) := by
    rw [mint, Prog.run_bind_ok env ht]; exact hst
  obtain ⟨rfl, k, n, rfl⟩ := run_mint_ok L hm
  simp only [Prog.pure_eq, Prog.run_ret, Prod.mk.injEq, Outcome.ok.injEq] at h
  obtain ⟨⟨rfl, rfl⟩, rfl⟩ := h
  exact ⟨user, k, n, hu, hc, rfl, rfl, rfl⟩

/-! ## C23 -/

include L in
/-- C23: a token made by `CreateToken` at instant `T` has expiry time exactly one hour after `T`; at any later time, in any store, with
any randomness, `GetTokenContents` returns the contents up to and including the expiry time and an error afterwards. -/
theorem C23_createToken {d : D1} {env : Env} {w w' : World} {contents : NBytes} {tok : SealedToken}
    (h : (d.createToken P contents).run env w = (.ok tok, w')) :
    tok.expiryTime.ns = (env.now w.t).ns + 3600 * 1000000000 ∧
    ∀ (env' : Env) (w2 : World), ((d.getTokenContents P tok).run env' w2).1 =
      if (env'.now w2.t).ns ≤ tok.expiryTime.ns then .ok contents else .err .tokenExpired := by
  rw [createToken_eq] at h
  obtain ⟨_, k, n, rfl⟩ := run_mint_ok L h
  refine ⟨rfl, fun env' w2 => ?_⟩
  have hd := decrypt_sealedTok L d.tokenCryptor contents ((env.now w.t).add tokenValidity) _ rfl k n
  rw [D1.getTokenContents, Prog.bind_eq, Prog.run_bind, run_unseal]
  by_cases hlt : (env'.now w2.t).ns ≤ (sealedTok P d.tokenCryptor contents ((env.now w.t).add tokenValidity) k n).expiryTime.ns
  · rw [if_neg (by omega), if_pos hlt]
    have : (sealedTok P d.tokenCryptor contents ((env.now w.t).add tokenValidity) k n).expiryTime =
      (env.now w.t).add tokenValidity := rfl
    rw [this, hd]
    rfl
  · rw [if_pos (by omega), if_neg hlt]

include L in
/-- `GetIdentity` of the string of a token with the given contents: nothing but an error once it is expired, the lookup of that user
until then. -/
theorem run_getIdentity_string {s : Standalone} {contents : NBytes} {expiry : GoTime} {k : BytesN 32} {n : BytesN 12} (env : Env)
    (w : World) : (s.getIdentity P ((sealedTok P s.tokenCryptor contents expiry k n).string P)).run env w =
      if (env.now w.t).ns ≤ expiry.ns then (s.lookup P contents.bytes).run env (w.next w.store)
      else (.err .idNotAuthenticated, w.next w.store) := by
  obtain ⟨e, h1, h2, h3⟩ := SealedToken.ofJ_toJ L (sealedTok P s.tokenCryptor contents expiry k n)
  have hf : tokenFromString P ((sealedTok P s.tokenCryptor contents expiry k n).string P) =
      .ok { sealedTok P s.tokenCryptor contents expiry k n with expiryTime := e } := by
    rw [tokenFromString, SealedToken.string, b64Dec_enc]
    simp only [L.unmarshal_render, Option.bind_some, h1]
  rw [Standalone.getIdentity, hf]
  simp only
  have hd := decrypt_sealedTok L s.tokenCryptor contents expiry e h3 k n
  rw [Prog.run_attempt, run_unseal]
  have hns : e.ns = expiry.ns := h2
  simp only [hns, hd]
  by_cases hlt : (env.now w.t).ns ≤ expiry.ns
  · rw [if_neg (by omega), if_pos hlt]
    rfl
  · rw [if_pos (by omega), if_neg hlt]
    rfl

include L in
/-- C23 for `LoginUser`: the string it returns denotes a token for the user that expires one hour after the clock was read, the reported
expiry is that instant in Unix seconds, and `GetIdentity` works with it up to and including that instant and rejects it later. -/
theorem C23_loginUser {s : Standalone} {env : Env} {w w' : World} {uid pwd str : GoString} {exp : Int}
    (h : (s.loginUser P uid pwd).run env w = (.ok (str, exp), w')) :
    ∃ expiry : GoTime, expiry.ns = (env.now (w.t + 1)).ns + 3600 * 1000000000 ∧ exp = expiry.ns / 1000000000 ∧
    ∀ (env' : Env) (w2 : World), (s.getIdentity P str).run env' w2 =
      if (env'.now w2.t).ns ≤ expiry.ns then (s.lookup P uid).run env' (w2.next w2.store)
      else (.err .idNotAuthenticated, w2.next w2.store) := by
  obtain ⟨user, k, n, _, _, rfl, rfl, _⟩ := run_loginUser_ok L h
  exact ⟨(env.now (w.t + 1)).add tokenValidity, rfl, rfl, fun env' w2 => run_getIdentity_string L env' w2⟩

/-- C23 on a concrete token: made at instant 0 in the toy setting. -/
example (contents : NBytes) : ∃ tok w', (toyD1.createToken toyPrims contents).run toyEnv ⟨fun _ _ => none, 0⟩ = (.ok tok, w') ∧
    tok.expiryTime.ns = 3600 * 1000000000 := by
  rw [createToken_eq, mint_eq toyLaws]
  exact ⟨_, _, rfl, rfl⟩

/-! ## C24 -/

/-- The cryptor accepts the token, but no token in `issued` has the same wrapped key, ciphertext and printed expiry time: the key
wrapping or AES-GCM was forged. -/
def TokenForgery (P : Prims) (c : Cryptor) (issued : SealedToken → Prop) (t : SealedToken) : Prop :=
  (∃ p, c.decrypt P J.toBytes (.ofTime P t.expiryTime) t.wrappedKey.bytes t.ciphertext.bytes = .ok p) ∧
  ¬ ∃ t', issued t' ∧ t'.wrappedKey.bytes = t.wrappedKey.bytes ∧ t'.ciphertext.bytes = t.ciphertext.bytes ∧
    P.timeText t'.expiryTime = P.timeText t.expiryTime

theorem yields_now {α : Type} {k : GoTime → Prog α} {tr : List Event} {o : Outcome α} :
    Yields (timeNow.bind k) tr o ↔ ∃ (now : GoTime) (tr' : List Event), tr = ⟨.now, now⟩ :: tr' ∧ Yields (k now) tr' o :=
  yields_op (e := .now) (k := k)

include L in
theorem yields_mint_ok {c : Cryptor} {contents : NBytes} {tr : List Event} {tok : SealedToken} :
    Yields (mint P c contents) tr (.ok tok) ↔ ∃ (now : GoTime) (k : BytesN 32) (n : BytesN 12),
      tr = [⟨.now, now⟩, evRand 32 k, evRand 12 n] ∧ tok = sealedTok P c contents (now.add tokenValidity) k n := by
  rw [mint_eq L, yields_now]
  constructor
  · rintro ⟨now, _, rfl, h⟩
    obtain ⟨tr1, tr2, k, rfl, h1, g⟩ := yields_bind_ok.mp h
    obtain ⟨tr3, tr4, n, rfl, h2, g'⟩ := yields_bind_ok.mp g
    rcases yields_rand.mp h1 with ⟨k', rfl, hk⟩ | ⟨_, hk⟩ <;> cases hk
    rcases yields_rand.mp h2 with ⟨n', rfl, hn⟩ | ⟨_, hn⟩ <;> cases hn
    obtain ⟨rfl, e⟩ := yields_ret.mp g'
    cases e
    exact ⟨now, k, n, rfl, rfl⟩
  · rintro ⟨now, k, n, rfl, rfl⟩
    exact ⟨now, _, rfl, yields_bind_ok.mpr ⟨[evRand 32 k], [evRand 12 n], k, rfl, yields_rand.mpr (.inl ⟨k, rfl, rfl⟩),
      yields_bind_ok.mpr ⟨[evRand 12 n], [], n, rfl, yields_rand.mpr (.inl ⟨n, rfl, rfl⟩), .ret _⟩⟩⟩

include L in
/-- An accepted token is genuine or a forgery. -/
theorem accepted_token {c : Cryptor} {issued : NBytes → SealedToken → Prop} {t : SealedToken} {p : NBytes}
    (hi : ∀ q t', issued q t' → ∃ e k n, t' = sealedTok P c q e k n)
    (h : c.decrypt P J.toBytes (.ofTime P t.expiryTime) t.wrappedKey.bytes t.ciphertext.bytes = .ok p) :
    (∃ t', issued p t' ∧ t'.expiryTime.ns = t.expiryTime.ns) ∨ TokenForgery P c (fun t' => ∃ q, issued q t') t := by
  by_cases hex : ∃ t', (∃ q, issued q t') ∧ t'.wrappedKey.bytes = t.wrappedKey.bytes ∧ t'.ciphertext.bytes = t.ciphertext.bytes ∧
      P.timeText t'.expiryTime = P.timeText t.expiryTime
  · left
    obtain ⟨t', ⟨q, hq⟩, h1, h2, h3⟩ := hex
    obtain ⟨e, k, n, rfl⟩ := hi q t' hq
    have hd := decrypt_sealedTok L c q e t.expiryTime h3.symm k n
    rw [h1, h2, h] at hd
    cases hd
    refine ⟨_, hq, ?_⟩
    have : (J.ofTime P (sealedTok P c p e k n).expiryTime).render = (J.ofTime P t.expiryTime).render := by
      simp only [J.ofTime, h3]
    exact (ofTime_render_inj L this).2
  · exact .inr ⟨⟨p, h⟩, hex⟩

/-- Exactly when `GetTokenContents` returns something. -/
theorem yields_getTokenContents_ok {d : D1} {t : SealedToken} {tr : List Event} {p : NBytes} :
    Yields (d.getTokenContents P t) tr (.ok p) ↔ ∃ now : GoTime, tr = [⟨.now, now⟩] ∧ ¬ t.expiryTime.ns < now.ns ∧
      d.tokenCryptor.decrypt P J.toBytes (.ofTime P t.expiryTime) t.wrappedKey.bytes t.ciphertext.bytes = .ok p := by
  simp only [D1.getTokenContents, SealedToken.unseal, Prog.bind_eq, Prog.bind_assoc, yields_now, GoTime.before, decide_eq_true_eq]
  constructor
  · rintro ⟨now, tr', rfl, h⟩
    split at h
    · simp at h
    · rename_i hlt
      cases hd : d.tokenCryptor.decrypt P J.toBytes (.ofTime P t.expiryTime) t.wrappedKey.bytes t.ciphertext.bytes with
      | error e => rw [hd] at h; simp at h
      | ok q =>
        rw [hd] at h
        simp at h
        obtain ⟨rfl, rfl⟩ := h
        exact ⟨now, rfl, hlt, rfl⟩
  · rintro ⟨now, rfl, hlt, hd⟩
    refine ⟨now, [], rfl, ?_⟩
    rw [if_neg hlt, hd]
    exact .ret _

include L in
/-- C24: `issued` is any collection of executions of `CreateToken`, with their contents and results.  If `GetTokenContents` returns
contents for some token, then a token with these contents and exactly that expiry instant was issued, or the token is a
forgery.  The clock read by `GetTokenContents` had not passed that instant. -/
theorem C24_contents {d : D1} {issued : NBytes → SealedToken → Prop}
    (hi : ∀ q t', issued q t' → ∃ tr, Yields (d.createToken P q) tr (.ok t')) {t : SealedToken} {tr : List Event} {p : NBytes}
    (h : Yields (d.getTokenContents P t) tr (.ok p)) :
    (∃ now : GoTime, tr = [⟨.now, now⟩] ∧ now.ns ≤ t.expiryTime.ns) ∧
    ((∃ t', issued p t' ∧ t'.expiryTime.ns = t.expiryTime.ns) ∨ TokenForgery P d.tokenCryptor (fun t' => ∃ q, issued q t') t) := by
  obtain ⟨now, htr, hlt, hd⟩ := yields_getTokenContents_ok.mp h
  refine ⟨⟨now, htr, by omega⟩, accepted_token L (fun q t' hq => ?_) hd⟩
  obtain ⟨tr', hy⟩ := hi q t' hq
  rw [createToken_eq] at hy
  obtain ⟨_, k, n, _, rfl⟩ := (yields_mint_ok L).mp hy
  exact ⟨_, k, n, rfl⟩

/-- C24 on a concrete history: one token issued at instant 5, then accepted, and that is no forgery. -/
example (d : D1) (k : BytesN 32) (n : BytesN 12) :
    let tok := sealedTok toyPrims d.tokenCryptor (some [1, 2]) ((⟨5, 0⟩ : GoTime).add tokenValidity) k n
    Yields (d.createToken toyPrims (some [1, 2])) [⟨.now, (⟨5, 0⟩ : GoTime)⟩, evRand 32 k, evRand 12 n] (.ok tok) ∧
    Yields (d.getTokenContents toyPrims tok) [⟨.now, (⟨6, 0⟩ : GoTime)⟩] (.ok (some [1, 2])) ∧
    ¬ TokenForgery toyPrims d.tokenCryptor (fun t' => t' = tok) tok := by
  refine ⟨?_, ?_, fun h => h.2 ⟨_, rfl, rfl, rfl, rfl⟩⟩
  · rw [createToken_eq]
    exact (yields_mint_ok toyLaws).mpr ⟨_, k, n, rfl, rfl⟩
  · exact yields_getTokenContents_ok.mpr ⟨_, rfl, by simp [sealedTok, GoTime.add, tokenValidity],
      decrypt_sealedTok toyLaws d.tokenCryptor _ _ _ rfl k n⟩

/-- `GetIdentity` returning an identity. -/
theorem yields_getIdentity_ok {s : Standalone} {str : GoString} {tr : List Event} {i : Identity}
    (h : Yields (s.getIdentity P str) tr (.ok i)) : ∃ (t : SealedToken) (now : GoTime) (tr' : List Event) (p : NBytes),
      tokenFromString P str = .ok t ∧ tr = ⟨.now, now⟩ :: tr' ∧ now.ns ≤ t.expiryTime.ns ∧
      s.tokenCryptor.decrypt P J.toBytes (.ofTime P t.expiryTime) t.wrappedKey.bytes t.ciphertext.bytes = .ok p ∧
      Yields (s.lookup P p.bytes) tr' (.ok i) := by
  rw [Standalone.getIdentity] at h
  cases ht : tokenFromString P str with
  | error e => rw [ht] at h; simp at h
  | ok t =>
    rw [ht] at h
    simp only [SealedToken.unseal, Prog.bind_eq, Prog.pure_eq, GoTime.before, decide_eq_true_eq] at h
    obtain ⟨now, tr', rfl, g⟩ := yields_op.mp h
    clear h
    have h : Yields (Prog.attempt (if t.expiryTime.ns < GoTime.ns now then _ else _) _) tr' _ := g
    split at h
    · simp at h
    · rename_i hlt
      cases hd : s.tokenCryptor.decrypt P J.toBytes (.ofTime P t.expiryTime) t.wrappedKey.bytes t.ciphertext.bytes with
      | error e => rw [hd] at h; simp at h
      | ok q =>
        rw [hd] at h
        exact ⟨t, now, tr', q, rfl, rfl, by omega, hd, h⟩

theorem yields_mapErr_ok {α : Type} {p : Prog α} {e : Err} {tr : List Event} {a : α} :
    Yields (p.mapErr e) tr (.ok a) ↔ Yields p tr (.ok a) := by
  rw [Prog.mapErr, yields_attempt]
  constructor
  · rintro (⟨tr1, tr2, b, rfl, h1, h2⟩ | ⟨_, _, _, _, _, h2⟩ | ⟨_, h2⟩ | ⟨_, h2⟩)
    · obtain ⟨rfl, h⟩ := yields_ret.mp h2
      cases h
      simpa using h1
    · simp at h2
    · cases h2
    · cases h2
  · intro h
    exact .inl ⟨tr, [], a, by simp, h, .ret a⟩

/-- `LoginUser` returning a token. -/
theorem yields_loginUser_ok {s : Standalone} {uid pwd str : GoString} {tr : List Event} {exp : Int}
    (h : Yields (s.loginUser P uid pwd) tr (.ok (str, exp))) : ∃ tr1 tr2 t, tr = tr1 ++ tr2 ∧
      Yields (mint P s.tokenCryptor (some uid)) tr2 (.ok t) ∧ str = t.string P ∧ exp = t.expiryTime.unix := by
  rw [Standalone.loginUser, Prog.bind_eq] at h
  obtain ⟨tr1, tr2, user, rfl, hu, h⟩ := yields_bind_ok.mp h
  obtain ⟨tr3, tr4, _, rfl, ha, h⟩ := yields_bind_ok.mp h
  obtain ⟨tr5, tr6, t, rfl, ht, h⟩ := yields_bind_ok.mp h
  obtain ⟨tr7, tr8, st, rfl, hs, h⟩ := yields_bind_ok.mp h
  rw [yields_mapErr_ok] at hs
  simp only [Prog.pure_eq, yields_ret, Outcome.ok.injEq, Prod.mk.injEq] at h
  obtain ⟨rfl, rfl, rfl⟩ := h
  refine ⟨tr1 ++ tr3, tr5 ++ tr7, st, by simp, ?_, rfl, rfl⟩
  rw [mint]
  exact yields_bind_ok.mpr ⟨tr5, tr7, t, rfl, ht, hs⟩

/-! ## C25 -/

include L in
/-- C25, first half: the string form of a token reads back as the same token: same key, ciphertext and instant.  Only the `*Location`
of the time may differ, and the printed form shows the same zone offset. -/
theorem C25_roundtrip (t : SealedToken) : ∃ t', tokenFromString P (t.string P) = .ok t' ∧ t'.wrappedKey = t.wrappedKey ∧
    t'.ciphertext = t.ciphertext ∧ t'.expiryTime.ns = t.expiryTime.ns ∧ P.timeText t'.expiryTime = P.timeText t.expiryTime := by
  obtain ⟨e, h1, h2, h3⟩ := SealedToken.ofJ_toJ L t
  refine ⟨{ t with expiryTime := e }, ?_, rfl, rfl, h2, h3⟩
  simp only [tokenFromString, SealedToken.string, b64Dec_enc, L.unmarshal_render, Option.bind_some, h1]

/-- A character of the URL-safe base64 alphabet. -/
def urlSafe (c : UInt8) : Prop :=
  (65 ≤ c.toNat ∧ c.toNat ≤ 90) ∨ (97 ≤ c.toNat ∧ c.toNat ≤ 122) ∨ (48 ≤ c.toNat ∧ c.toNat ≤ 57) ∨ c = 45 ∨ c = 95

theorem urlSafe_of_val {c : UInt8} {v : Nat} (h : b64Val true c = some v) : urlSafe c := by
  simp only [b64Val, if_true] at h
  unfold urlSafe
  split at h
  · exact .inl ‹_›
  · split at h
    · exact .inr (.inl ‹_›)
    · split at h
      · exact .inr (.inr (.inl ‹_›))
      · split at h
        · rename_i hc; exact .inr (.inr (.inr (.inl (UInt8.toNat_inj.mp hc))))
        · split at h
          · rename_i hc; exact .inr (.inr (.inr (.inr (UInt8.toNat_inj.mp hc))))
          · cases h

theorem urlSafe_of_dec (s out : Bytes) (h : b64DecAux true s = some out) : ∀ c ∈ s, urlSafe c := by
  match s with
  | [] => simp
  | [_] => simp [b64DecAux] at h
  | [a, b] =>
    simp only [b64DecAux, if_true] at h
    split at h
    · rename_i h1 h2
      simp [urlSafe_of_val h1, urlSafe_of_val h2]
    · cases h
  | [a, b, c] =>
    simp only [b64DecAux, if_true] at h
    split at h
    · rename_i h1 h2 h3
      simp [urlSafe_of_val h1, urlSafe_of_val h2, urlSafe_of_val h3]
    · cases h
  | a :: b :: c :: d :: r =>
    simp only [b64DecAux, Bool.true_eq_false, false_and, if_false] at h
    split at h
    · rename_i h1 h2
      split at h
      · cases h
      · rename_i h3
        split at h
        · cases h
        · rename_i h4
          split at h
          · cases h
          · rename_i out' h5
            have := urlSafe_of_dec r out' h5
            intro x hx
            simp only [List.mem_cons] at hx
            rcases hx with rfl | rfl | rfl | rfl | hx
            · exact urlSafe_of_val h1
            · exact urlSafe_of_val h2
            · exact urlSafe_of_val h3
            · exact urlSafe_of_val h4
            · exact this x hx
    · cases h

/-- C25, second half: a string with a character outside the URL-safe base64 alphabet, other than CR and LF, is rejected. -/
theorem C25_garbage {str : GoString} {c : UInt8} (hc : c ∈ str) (hu : ¬ urlSafe c) (hr : c ≠ 10 ∧ c ≠ 13) :
    tokenFromString P str = .error .base64 := by
  have : b64Dec true str = none := by
    cases hd : b64Dec true str with
    | none => rfl
    | some out => exact absurd (urlSafe_of_dec _ _ hd c (by simp [hc, hr.1, hr.2])) hu
  rw [tokenFromString, this]

/-- Garbage of the second kind never authenticates anybody, and no storage is consulted for it. -/
theorem C25_garbage_identity {s : Standalone} {str : GoString} {c : UInt8} (hc : c ∈ str) (hu : ¬ urlSafe c) (hr : c ≠ 10 ∧ c ≠ 13) :
    s.getIdentity P str = .err .idNotAuthenticated := by
  rw [Standalone.getIdentity, C25_garbage hc hu hr]

/-- `"=="`, a space and `'+'` are garbage. -/
example : tokenFromString P [65, 65, 61, 61] = .error .base64 ∧ tokenFromString P [65, 32, 65] = .error .base64 ∧
    tokenFromString P [43, 65] = .error .base64 :=
  ⟨C25_garbage (c := 61) (by decide) (by unfold urlSafe; decide) (by decide),
    C25_garbage (c := 32) (by decide) (by unfold urlSafe; decide) (by decide),
    C25_garbage (c := 43) (by decide) (by unfold urlSafe; decide) (by decide)⟩

/-- JSON text of a token without an expiry time, and of one whose expiry time is null. -/
def noExpiry (c w : NBytes) : List J :=
  [.obj (.cons nCiphertext (.ofBytes c) (.cons nWrappedKey (.ofBytes w) .nil)),
    .obj (.cons nExpiryTime .null (.cons nCiphertext (.ofBytes c) (.cons nWrappedKey (.ofBytes w) .nil)))]

include L in
theorem noExpiry_read {c w : NBytes} {j : J} (hj : j ∈ noExpiry c w) :
    tokenFromString P (b64Enc true j.render) = .ok ⟨⟨-(719162 * 86400 * 1000000000), 0⟩, c, w⟩ := by
  have h : SealedToken.ofJ P j.san = some ⟨⟨-(719162 * 86400 * 1000000000), 0⟩, c, w⟩ := by
    simp only [noExpiry, List.mem_cons, List.not_mem_nil, or_false] at hj
    rcases hj with rfl | rfl <;>
      simp [SealedToken.ofJ, J.san, JFields.san, J.fields, field, JFields.lookup, J.toTime, zeroTime,
        show nCiphertext ≠ nExpiryTime by decide, show nWrappedKey ≠ nExpiryTime by decide, show nWrappedKey ≠ nCiphertext by decide]
  simp only [tokenFromString, b64Dec_enc, L.unmarshal_render, Option.bind_some, h]

include L in
/-- C25: a token string without an expiry time, or with a null one, is not an error: it reads as expired since the first of January of year 1
(719162 days before 1970).  So whatever its ciphertext and key, from then on it opens nowhere. -/
theorem C25_no_expiry {c w : NBytes} {j : J} (hj : j ∈ noExpiry c w) : ∃ t, tokenFromString P (b64Enc true j.render) = .ok t ∧
    t.ciphertext = c ∧ t.wrappedKey = w ∧ t.expiryTime.ns = -(719162 * 86400 * 1000000000) ∧
    ∀ (env : Env) (wd : World), -(719162 * 86400 * 1000000000) < (env.now wd.t).ns →
      (∀ d : D1, ((d.getTokenContents P t).run env wd).1 = .err .tokenExpired) ∧
      ∀ s : Standalone, ((s.getIdentity P (b64Enc true j.render)).run env wd).1 = .err .idNotAuthenticated := by
  refine ⟨_, noExpiry_read L hj, rfl, rfl, rfl, fun env wd ht => ⟨fun d => ?_, fun s => ?_⟩⟩
  · rw [D1.getTokenContents, Prog.bind_eq, Prog.run_bind, run_unseal, if_pos ht]
  · rw [Standalone.getIdentity, noExpiry_read L hj, Prog.run_attempt, run_unseal, if_pos ht]
    rfl

/-- Such a token exists. -/
example : J.obj (.cons nCiphertext (.ofBytes (some [1])) (.cons nWrappedKey (.ofBytes none) .nil)) ∈ noExpiry (some [1]) none := List.mem_cons_self

include L in
/-- The string form determines the token up to the `*Location` of its time. -/
theorem string_inj {t t' : SealedToken} (h : t.string P = t'.string P) :
    t.wrappedKey = t'.wrappedKey ∧ t.ciphertext = t'.ciphertext ∧ t.expiryTime.ns = t'.expiryTime.ns ∧
      P.timeText t.expiryTime = P.timeText t'.expiryTime := by
  obtain ⟨a, ha, h1, h2, h3, h4⟩ := C25_roundtrip L t
  obtain ⟨b, hb, g1, g2, g3, g4⟩ := C25_roundtrip L t'
  rw [h, hb] at ha
  cases ha
  exact ⟨h1.symm.trans g1, h2.symm.trans g2, h3.symm.trans g3, h4.symm.trans g4⟩

/-! ## C24 for identity tokens -/

include L in
/-- C24 for identity tokens: `logins` is any collection of successful executions of `LoginUser` of this provider (user, string,
reported expiry).  If `GetIdentity` accepts a string, then a login of exactly the user it reports produced a token with exactly the
expiry instant of the string, or the string holds a forgery.  Either way the clock had not passed that instant. -/
theorem C24_identity {s : Standalone} {logins : GoString → GoString → Int → Prop}
    (hl : ∀ uid str exp, logins uid str exp → ∃ pwd tr, Yields (s.loginUser P uid pwd) tr (.ok (str, exp)))
    {str : GoString} {tr : List Event} {i : Identity} (h : Yields (s.getIdentity P str) tr (.ok i)) :
    ∃ t now tr', tokenFromString P str = .ok t ∧ tr = ⟨.now, now⟩ :: tr' ∧ (now : GoTime).ns ≤ t.expiryTime.ns ∧
      ((∃ (t' : SealedToken) (exp : Int), logins i.id (t'.string P) exp ∧ t'.expiryTime.ns = t.expiryTime.ns ∧ exp = t.expiryTime.unix) ∨
        TokenForgery P s.tokenCryptor (fun t' => ∃ uid exp, logins uid (t'.string P) exp) t) := by
  obtain ⟨t, now, tr', p, ht, rfl, hle, hd, hlook⟩ := yields_getIdentity_ok h
  refine ⟨t, now, tr', ht, rfl, hle, ?_⟩
  by_cases hf : TokenForgery P s.tokenCryptor (fun t' => ∃ uid exp, logins uid (t'.string P) exp) t
  · exact .inr hf
  · left
    have hex : ∃ t' : SealedToken, (∃ uid exp, logins uid (t'.string P) exp) ∧ t'.wrappedKey.bytes = t.wrappedKey.bytes ∧
        t'.ciphertext.bytes = t.ciphertext.bytes ∧ P.timeText t'.expiryTime = P.timeText t.expiryTime := by
      by_contra hn
      exact hf ⟨⟨p, hd⟩, hn⟩
    obtain ⟨t', ⟨uid, exp, hlog⟩, h1, h2, h3⟩ := hex
    obtain ⟨pwd, trl, hy⟩ := hl _ _ _ hlog
    obtain ⟨_, tr2, t'', _, hm, hstr, hexp⟩ := yields_loginUser_ok hy
    obtain ⟨now', k, n, _, rfl⟩ := (yields_mint_ok L).mp hm
    obtain ⟨g1, g2, g3, g4⟩ := string_inj L hstr
    have hd' := decrypt_sealedTok L s.tokenCryptor (some uid) (now'.add tokenValidity) t.expiryTime (h3.symm.trans g4) k n
    rw [← g1, ← g2, h1, h2, hd] at hd'
    cases hd'
    have hns : t'.expiryTime.ns = t.expiryTime.ns := by
      have : (J.ofTime P t'.expiryTime).render = (J.ofTime P t.expiryTime).render := by simp only [J.ofTime, h3]
      exact (ofTime_render_inj L this).2
    have hid : i.id = uid := by
      rw [Standalone.lookup] at hlook
      obtain ⟨_, _, _, _, _, hlook⟩ := yields_bind_ok.mp hlook
      obtain ⟨_, _, _, _, _, hlook⟩ := yields_bind_ok.mp hlook
      obtain ⟨_, hlook⟩ := yields_ret.mp hlook
      cases hlook
      rfl
    rw [hid]
    refine ⟨t', exp, hlog, hns, ?_⟩
    rw [hexp, GoTime.unix, GoTime.unix, ← hns, g3]

/-! ## C26 -/

/-- C26 is false: adding a line feed to a string that `GetIdentity` accepts gives another string that it treats in exactly the same
way (Go's decoder skips CR and LF).  So a token string can be changed without invalidating it. -/
theorem C26_second_string (s : Standalone) (str : GoString) :
    str ++ [10] ≠ str ∧ s.getIdentity P (str ++ [10]) = s.getIdentity P str := by
  refine ⟨fun h => by simpa using congrArg List.length h, ?_⟩
  have : b64Dec true (str ++ [10]) = b64Dec true str := by simp [b64Dec]
  simp only [Standalone.getIdentity, tokenFromString, this]

/-- The second source of variants: Go's decoder ignores the unused low bits of the last character.  `"AA"` and `"AP"` are the same. -/
theorem C26_trailing_bits : b64Dec true [65, 65] = b64Dec true [65, 80] := by decide

include L in
/-- What holds of C26: among the strings that `String()` produces, two different ones never denote the same token, not even up to the
`*Location` of its time.  Missing: strings made by anyone else, by C26_second_string. -/
theorem C26_unique_partial {t t' u u' : SealedToken} (h : tokenFromString P (t.string P) = .ok u)
    (h' : tokenFromString P (t'.string P) = .ok u') (hw : u.wrappedKey = u'.wrappedKey) (hc : u.ciphertext = u'.ciphertext)
    (he : P.timeText u.expiryTime = P.timeText u'.expiryTime) : t.string P = t'.string P := by
  obtain ⟨a, ha, h1, h2, _, h4⟩ := C25_roundtrip L t
  obtain ⟨b, hb, g1, g2, _, g4⟩ := C25_roundtrip L t'
  rw [h] at ha; cases ha
  rw [h'] at hb; cases hb
  simp only [SealedToken.string, SealedToken.toJ, J.ofTime, ← h1, ← h2, ← h4, hw, hc, he, g1, g2, g4]

end

end D1
