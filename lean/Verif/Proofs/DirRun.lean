import Verif.Props.Token
import Verif.Spec.Directory
/-!
# Sequential runs of the Standalone provider refine the directory
-/
namespace D1
open Spec Prog

/-- The sealed form of a user under a drawn key and nonce. -/
def sealedUser (P : Prims) (s : Standalone) (uid : GoString) (u : User) (k : BytesN 32) (n : BytesN 12) : SealedUser :=
  ⟨uid, some (gcmBox P k.1 n.1 (J.str uid).render u.toJ.render), some (kwpBox P s.userCryptor.kwp k.1)⟩

/-- The sealed form of a group under a drawn key and nonce. -/
def sealedGroup (P : Prims) (s : Standalone) (gid : GoString) (g : Group) (k : BytesN 32) (n : BytesN 12) : SealedGroup :=
  ⟨gid, some (gcmBox P k.1 n.1 (J.str gid).render g.toJ.render), some (kwpBox P s.groupCryptor.kwp k.1)⟩

/-- The store holds this user. -/
def UserAt (P : Prims) (s : Standalone) (st : Store) (uid : GoString) (u : DirUser) : Prop :=
  ∃ (h : Bytes) (k : BytesN 32) (n : BytesN 12),
    st uid dtUser = some (sealedUser P s uid ⟨some h, u.scopes, some u.groups⟩ k n).toJ.render ∧
    (∀ p, comparePassword P p h = some (u.accepts p)) ∧ sanitize uid = uid ∧ u.groups.Nodup ∧ ∀ g ∈ u.groups, sanitize g = g

/-- The store holds this group. -/
def GroupAt (P : Prims) (s : Standalone) (st : Store) (gid : GoString) (sc : Scope) : Prop :=
  ∃ (k : BytesN 32) (n : BytesN 12), st gid dtGroup = some (sealedGroup P s gid ⟨sc⟩ k n).toJ.render ∧ sanitize gid = gid

def UserRel (P : Prims) (s : Standalone) (st : Store) (uid : GoString) : Option DirUser → Prop
  | none => st uid dtUser = none
  | some u => UserAt P s st uid u

def GroupRel (P : Prims) (s : Standalone) (st : Store) (gid : GoString) : Option Scope → Prop
  | none => st gid dtGroup = none
  | some sc => GroupAt P s st gid sc

/-- The abstraction relation. -/
def DirRel (P : Prims) (s : Standalone) (st : Store) (v : Dir) : Prop :=
  (∀ uid, UserRel P s st uid (v.users uid)) ∧ ∀ gid, GroupRel P s st gid (v.groups gid)

/-- What a token string says at an instant. -/
def tokenUser (P : Prims) (c : Cryptor) (str : GoString) (now : Int) : Option GoString :=
  match tokenFromString P str with
  | .error _ => none
  | .ok t => if t.expiryTime.ns < now then none else
    match c.decrypt P J.toBytes (.ofTime P t.expiryTime) t.wrappedKey.bytes t.ciphertext.bytes with
    | .error _ => none
    | .ok p => some p.bytes

/-- The identity of a user in a directory. -/
def dirIdentity (v : Dir) (x : GoString × DirUser) : Identity :=
  ⟨x.1, x.2.scopes, x.2.groups.map fun g => (g, ⟨g, (v.groups g).getD 0⟩)⟩

/-- The program of a call, with what the caller sees. -/
def dirProg (P : Prims) (s : Standalone) : DirCall → Prog DirRes
  | .newUser sc => (s.newUser P sc).bind fun r => .ret (.user r.1 r.2)
  | .loginUser u p => (s.loginUser P u p).bind fun r => .ret (.token (tokenUser P s.tokenCryptor r.1) r.2)
  | .changePassword u p => (s.changeUserPassword P u p).bind fun r => .ret (.password r)
  | .newGroup t sc => (s.newGroup P t sc).bind fun g => .ret (.group g)
  | .addUser t u gs => (s.addUserToGroups P t u gs).bind fun _ => .ret .unit
  | .removeUser t u gs => (s.removeUserFromGroups P t u gs).bind fun _ => .ret .unit
  | .deleteUser t u => (s.deleteUser P t u).bind fun _ => .ret .unit
  | .getIdentity t => (s.getIdentity P t).bind fun i => .ret (.identity i.id i.scopes fun g => (lookupGroup i.groups g).map (·.scopes))

section
variable {P : Prims} (L : P.Laws) {env : Env} {s : Standalone}

theorem UserRel.congr {st st' : Store} {uid : GoString} {u : Option DirUser} (hs : st' uid dtUser = st uid dtUser)
    (h : UserRel P s st uid u) : UserRel P s st' uid u := by
  cases u with
  | none => exact hs.trans h
  | some u => obtain ⟨a, k, n, h1, h2⟩ := h; exact ⟨a, k, n, hs.trans h1, h2⟩

theorem GroupRel.congr {st st' : Store} {gid : GoString} {u : Option Scope} (hs : st' gid dtGroup = st gid dtGroup)
    (h : GroupRel P s st gid u) : GroupRel P s st' gid u := by
  cases u with
  | none => exact hs.trans h
  | some u => obtain ⟨k, n, h1, h2⟩ := h; exact ⟨k, n, hs.trans h1, h2⟩

theorem DirRel.congr {st st' : Store} {v : Dir} (h : DirRel P s st v)
    (hs : ∀ x, st' x dtUser = st x dtUser ∧ st' x dtGroup = st x dtGroup) : DirRel P s st' v :=
  ⟨fun uid => (h.1 uid).congr (hs uid).1, fun gid => (h.2 gid).congr (hs gid).2⟩

theorem DirRel.setUser {st : Store} {v : Dir} (h : DirRel P s st v) (uid : GoString) (b : Option Bytes) (u : Option DirUser)
    (hn : UserRel P s (st.set uid dtUser b) uid u) : DirRel P s (st.set uid dtUser b) (v.setUser uid u) := by
  constructor
  · intro x
    by_cases hx : x = uid
    · subst hx; simpa [Dir.setUser] using hn
    · simp only [Dir.setUser, if_neg hx]
      exact (h.1 x).congr (Store.set_other _ _ _ _ _ _ (by simp [hx]))
  · intro x
    exact (h.2 x).congr (Store.set_other _ _ _ _ _ _ (by simp [dtUser, dtGroup, dtEnd]))

theorem DirRel.setGroup {st : Store} {v : Dir} (h : DirRel P s st v) (gid : GoString) (b : Option Bytes) (sc : Scope)
    (hn : GroupAt P s (st.set gid dtGroup b) gid sc) : DirRel P s (st.set gid dtGroup b) (v.setGroup gid sc) := by
  constructor
  · intro x
    exact (h.1 x).congr (Store.set_other _ _ _ _ _ _ (by simp [dtUser, dtGroup, dtEnd]))
  · intro x
    by_cases hx : x = gid
    · subst hx; simp only [Dir.setGroup, if_true]; exact hn
    · simp only [Dir.setGroup, if_neg hx]
      exact (h.2 x).congr (Store.set_other _ _ _ _ _ _ (by simp [hx]))

theorem foldl_setInsert_append (l m : List GoString) (h : (m ++ l).Nodup) : l.foldl setInsert m = m ++ l := by
  induction l generalizing m with
  | nil => simp
  | cons a l ih =>
    have hn : a ∉ m := fun ha => by
      rw [List.nodup_append] at h
      exact h.2.2 a ha a (by simp) rfl
    rw [List.foldl_cons, setInsert, if_neg hn, ih _ (by simpa using h)]
    simp

theorem sanList_id {l : List GoString} (hn : l.Nodup) (hs : ∀ g ∈ l, sanitize g = g) : sanList l = l := by
  rw [sanList, List.map_congr_left hs, List.map_id', foldl_setInsert_append _ _ (by simpa using hn), List.nil_append]

include L in
theorem run_getUser (hf : NoFault env) {w : World} {uid : GoString} {u : DirUser} (h : UserAt P s w.store uid u) :
    ∃ hash, (s.getUser P uid).run env w = (.ok ⟨some hash, u.scopes, some u.groups⟩, w.next w.store) ∧
      ∀ p, comparePassword P p hash = some (u.accepts p) := by
  obtain ⟨hash, k, n, h1, h2, h3, h4, h5⟩ := h
  refine ⟨hash, ?_, h2⟩
  rw [Standalone.getUser, Prog.bind_eq, Prog.run_bind_ok env (run_ioGet_some hf _ w uid dtUser _ h1)]
  rw [L.unmarshal_render, Option.bind_some, SealedUser.ofJ_toJ]
  simp only [sealedUser, h3, SealedUser.unseal, NBytes.bytes, Option.getD_some]
  rw [Cryptor.decrypt_box L]
  simp [User.ofJ_toJ, sanList_id h4 h5]

theorem run_getUser_none (hf : NoFault env) {w : World} {uid : GoString} (h : w.store uid dtUser = none) :
    (s.getUser P uid).run env w = (.err .userNotFound, w.next w.store) := by
  rw [Standalone.getUser, Prog.bind_eq, Prog.run_bind_err env (run_ioGet_none hf _ w uid dtUser h)]
  rfl

include L in
theorem run_getGroup (hf : NoFault env) {w : World} {gid : GoString} {sc : Scope} (h : GroupAt P s w.store gid sc) :
    (s.getGroup P gid).run env w = (.ok ⟨sc⟩, w.next w.store) := by
  obtain ⟨k, n, h1, h3⟩ := h
  rw [Standalone.getGroup, Prog.bind_eq, Prog.run_bind_ok env (run_ioGet_some hf _ w gid dtGroup _ h1)]
  rw [L.unmarshal_render, Option.bind_some, SealedGroup.ofJ_toJ]
  simp only [sealedGroup, h3, SealedGroup.unseal, NBytes.bytes, Option.getD_some]
  rw [Cryptor.decrypt_box L]
  simp [Group.ofJ_toJ]

theorem run_getGroup_none (hf : NoFault env) {w : World} {gid : GoString} (h : w.store gid dtGroup = none) :
    (s.getGroup P gid).run env w = (.err .groupNotFound, w.next w.store) := by
  rw [Standalone.getGroup, Prog.bind_eq, Prog.run_bind_err env (run_ioGet_none hf _ w gid dtGroup h)]
  rfl

include L in
theorem run_fetchGroups (hf : NoFault env) {v : Dir} (l : List GoString) {w : World} (h : DirRel P s w.store v) :
    ∃ w', w'.store = w.store ∧ (s.fetchGroups P l).run env w =
      (if l.all fun g => (v.groups g).isSome then .ok (l.map fun g => (g, ⟨g, (v.groups g).getD 0⟩)) else .err .groupNotFound, w') := by
  induction l generalizing w with
  | nil => exact ⟨w, rfl, rfl⟩
  | cons g l ih =>
    have hg := h.2 g
    rw [Standalone.fetchGroups, Prog.bind_eq]
    cases hv : v.groups g with
    | none =>
      rw [hv] at hg
      refine ⟨w.next w.store, rfl, ?_⟩
      rw [Prog.run_bind_err env (run_getGroup_none hf hg), if_neg (by simp [hv])]
    | some sc =>
      rw [hv] at hg
      rw [Prog.run_bind_ok env (run_getGroup L hf hg)]
      obtain ⟨w', hw', hr⟩ := ih (w := w.next w.store) h
      refine ⟨w', hw', ?_⟩
      rw [Prog.bind_eq, Prog.run_bind, hr]
      cases hall : l.all fun g => (v.groups g).isSome <;> simp [hv, hall]

include L in
theorem run_getIdentity (hf : NoFault env) {v : Dir} {w : World} (h : DirRel P s w.store v) (token : GoString) :
    ∃ w', w'.store = w.store ∧ (s.getIdentity P token).run env w =
      (toOutcome ((v.identify (tokenUser P s.tokenCryptor token (env.now w.t).ns)).map (dirIdentity v)), w') := by
  rw [Standalone.getIdentity, tokenUser]
  cases ht : tokenFromString P token with
  | error e => exact ⟨w, rfl, rfl⟩
  | ok t =>
    simp only
    rw [Prog.run_attempt, run_unseal]
    by_cases hlt : t.expiryTime.ns < (env.now w.t).ns
    · simp only [if_pos hlt]
      exact ⟨w.next w.store, rfl, rfl⟩
    · simp only [if_neg hlt]
      cases hd : s.tokenCryptor.decrypt P J.toBytes (.ofTime P t.expiryTime) t.wrappedKey.bytes t.ciphertext.bytes with
      | error e => exact ⟨w.next w.store, rfl, rfl⟩
      | ok p =>
        simp only [Dir.identify]
        have hu := h.1 p.bytes
        cases hv : v.users p.bytes with
        | none =>
          rw [hv] at hu
          refine ⟨(w.next w.store).next w.store, rfl, ?_⟩
          rw [Prog.bind_eq, Prog.run_bind_err env (run_getUser_none hf (w := w.next w.store) hu)]
          rfl
        | some u =>
          rw [hv] at hu
          obtain ⟨hash, hr, _⟩ := run_getUser L hf (w := w.next w.store) hu
          rw [Prog.bind_eq, Prog.run_bind_ok env hr]
          obtain ⟨w', hw', hg⟩ := run_fetchGroups L hf u.groups (w := (w.next w.store).next w.store) h
          refine ⟨w', hw', ?_⟩
          rw [Prog.bind_eq, Prog.run_bind]
          simp only [Option.getD_some, hg]
          cases u.groups.all fun g => (v.groups g).isSome <;> rfl

include L in
theorem run_putUser_update (hf : NoFault env) (hr : RandOk env) {w : World} {uid : GoString} (u : User) {x : Bytes}
    (h : w.store uid dtUser = some x) : (s.putUser P uid u true).run env w =
      (.ok (), ⟨w.store.set uid dtUser (some (sealedUser P s uid u (drawn env w.t 32) (drawn env (w.t + 1) 12)).toJ.render), w.t + 3⟩) := by
  rw [Standalone.putUser, User.seal, Prog.bind_eq, Prog.bind_eq, Prog.bind_assoc,
    Prog.run_bind_ok env (Cryptor.run_encrypt L hr _ _ _ w)]
  exact run_ioUpdate_some hf _ ⟨w.store, w.t + 2⟩ uid dtUser _ x h

include L in
theorem run_putUser_new (hf : NoFault env) (hr : RandOk env) {w : World} {uid : GoString} (u : User)
    (h : w.store uid dtUser = none) : (s.putUser P uid u false).run env w =
      (.ok (), ⟨w.store.set uid dtUser (some (sealedUser P s uid u (drawn env w.t 32) (drawn env (w.t + 1) 12)).toJ.render), w.t + 3⟩) := by
  rw [Standalone.putUser, User.seal, Prog.bind_eq, Prog.bind_eq, Prog.bind_assoc,
    Prog.run_bind_ok env (Cryptor.run_encrypt L hr _ _ _ w)]
  exact run_ioPut_none hf _ ⟨w.store, w.t + 2⟩ uid dtUser _ h

include L in
theorem run_putUser_exists (hf : NoFault env) (hr : RandOk env) {w : World} {uid : GoString} (u : User) {x : Bytes}
    (h : w.store uid dtUser = some x) : (s.putUser P uid u false).run env w = (.err .userAlreadyExists, ⟨w.store, w.t + 3⟩) := by
  rw [Standalone.putUser, User.seal, Prog.bind_eq, Prog.bind_eq, Prog.bind_assoc,
    Prog.run_bind_ok env (Cryptor.run_encrypt L hr _ _ _ w)]
  exact run_ioPut_some hf _ ⟨w.store, w.t + 2⟩ uid dtUser _ x h

include L in
theorem run_putGroup_new (hf : NoFault env) (hr : RandOk env) {w : World} {gid : GoString} (g : Group)
    (h : w.store gid dtGroup = none) : (s.putGroup P gid g).run env w =
      (.ok (), ⟨w.store.set gid dtGroup (some (sealedGroup P s gid g (drawn env w.t 32) (drawn env (w.t + 1) 12)).toJ.render), w.t + 3⟩) := by
  rw [Standalone.putGroup, Group.seal, Prog.bind_eq, Prog.bind_eq, Prog.bind_assoc,
    Prog.run_bind_ok env (Cryptor.run_encrypt L hr _ _ _ w)]
  exact run_ioPut_none hf _ ⟨w.store, w.t + 2⟩ gid dtGroup _ h

include L in
theorem run_putGroup_exists (hf : NoFault env) (hr : RandOk env) {w : World} {gid : GoString} (g : Group) {x : Bytes}
    (h : w.store gid dtGroup = some x) : (s.putGroup P gid g).run env w = (.err .groupAlreadyExists, ⟨w.store, w.t + 3⟩) := by
  rw [Standalone.putGroup, Group.seal, Prog.bind_eq, Prog.bind_eq, Prog.bind_assoc,
    Prog.run_bind_ok env (Cryptor.run_encrypt L hr _ _ _ w)]
  exact run_ioPut_some hf _ ⟨w.store, w.t + 2⟩ gid dtGroup _ x h

/-- The password and record made by `GeneratePassword` in a world. -/
def drawnPassword (env : Env) (t : Nat) : GoString := b64Enc true (drawn env t passwordLength).1

/-- Which passwords the record made there accepts. -/
def drawnAccepts (P : Prims) (env : Env) (t : Nat) (p : GoString) : Bool :=
  decide (P.pbkdf2 p (drawn env (t + 1) saltLength).1 = P.pbkdf2 (drawnPassword env t) (drawn env (t + 1) saltLength).1)

theorem run_generatePassword (hr : RandOk env) (w : World) : ∃ hash, (generatePassword P).run env w =
      (.ok (drawnPassword env w.t, hash), ⟨w.store, w.t + 2⟩) ∧ ∀ p, comparePassword P p hash = some (drawnAccepts P env w.t p) := by
  refine ⟨(drawn env (w.t + 1) saltLength).1 ++ P.pbkdf2 (drawnPassword env w.t) (drawn env (w.t + 1) saltLength).1, ?_, ?_⟩
  · rw [generatePassword, Prog.bind_eq, Prog.run_bind_ok env (run_randBytes hr w _), Prog.bind_eq,
      Prog.run_bind_ok env (run_randBytes hr _ _)]
    rfl
  · intro p
    have hl : (drawn env (w.t + 1) saltLength).1.length = saltLength := (drawn env (w.t + 1) saltLength).2
    rw [comparePassword, if_neg (by rw [List.length_append]; omega)]
    simp only [List.take_left' hl, List.drop_left' hl, drawnAccepts]

theorem scopeUnion_eq (l : List Scope) : scopeUnion l = allScopes l := by
  have : ∀ a : Scope, l.foldl (fun r s => r ||| s) a = a ||| allScopes l := by
    induction l with
    | nil => intro a; simp [allScopes]
    | cons b l ih => intro a; rw [List.foldl_cons, ih, allScopes, allScopes, List.foldr_cons, BitVec.or_assoc]
  rw [scopeUnion, this, scopeNone]
  simp

theorem run_newV4 (hr : RandOk env) (w : World) : newV4.run env w = (.ok (mkV4 (drawn env w.t 16)), w.next w.store) := by
  rw [newV4, Prog.bind_eq, Prog.run_bind_ok env (run_randBytes hr w _)]
  rfl

/-- The inputs of a call in a world. -/
def dirIn (P : Prims) (s : Standalone) (env : Env) (w : World) (c : DirCall) : DirIn where
  who := tokenUser P s.tokenCryptor c.token (env.now w.t).ns
  now := (env.now (w.t + 1)).ns
  newId := match c with
    | .newGroup t _ => uuidText (mkV4 (drawn env ((s.getIdentity P t).run env w).2.t 16))
    | _ => uuidText (mkV4 (drawn env w.t 16))
  password := drawnPassword env (w.t + 1)
  accepts := drawnAccepts P env (w.t + 1)

include L in
theorem run_mint (hr : RandOk env) (c : Cryptor) (contents : NBytes) (w : World) : (mint P c contents).run env w =
    (.ok (sealedTok P c contents ((env.now w.t).add tokenValidity) (drawn env (w.t + 1) 32) (drawn env (w.t + 2) 12)),
      ⟨w.store, w.t + 3⟩) := by
  rw [mint_eq L, Prog.run_bind_ok env (run_timeNow w), Prog.run_bind_ok env (run_randBytes hr _ 32),
    Prog.run_bind_ok env (run_randBytes hr _ 12)]
  rfl

theorem loginUser_eq (uid pwd : GoString) : s.loginUser P uid pwd =
    ((s.getUser P uid).mapErr .idNotAuthenticated).bind fun user =>
      ((user.authenticate P pwd).mapErr .idNotAuthenticated).bind fun _ =>
        (newToken (some uid) tokenValidity).bind fun t => ((t.seal P s.tokenCryptor).mapErr .idNotAuthenticated).bind fun st =>
          .ret (st.string P, st.expiryTime.unix) := rfl

include L in
theorem tokenUser_string (c : Cryptor) (contents : NBytes) (e : GoTime) (k : BytesN 32) (n : BytesN 12) (now : Int) :
    tokenUser P c ((sealedTok P c contents e k n).string P) now = if now ≤ e.ns then some contents.bytes else none := by
  obtain ⟨e', h1, h2, h3⟩ := SealedToken.ofJ_toJ L (sealedTok P c contents e k n)
  have h3' : P.timeText e' = P.timeText e := h3
  have h2' : e'.ns = e.ns := h2
  have hd := decrypt_sealedTok L c contents e e' h3' k n
  simp only [tokenUser, tokenFromString, SealedToken.string, b64Dec_enc, L.unmarshal_render, Option.bind_some, h1, hd, h2']
  by_cases h : now ≤ e.ns
  · rw [if_pos h, if_neg (by omega)]
  · rw [if_neg h, if_pos (by omega)]

theorem run_mapErr_err {α : Type} {p : Prog α} {e e' : Err} {w w' : World} (h : p.run env w = (.err e', w')) :
    (p.mapErr e).run env w = (.err e, w') := by
  rw [Prog.mapErr, Prog.run_attempt_err env h]
  rfl

include L in
theorem run_loginUser (hf : NoFault env) (hr : RandOk env) {v : Dir} {w : World} (h : DirRel P s w.store v) (uid pwd : GoString) :
    ∃ w', (dirProg P s (.loginUser uid pwd)).run env w =
      (toOutcome (dirStep v (dirIn P s env w (.loginUser uid pwd)) (.loginUser uid pwd)).1, w') ∧ w'.store = w.store := by
  have hu := h.1 uid
  simp only [dirProg, dirStep, loginUser_eq, Prog.bind_assoc]
  cases hv : v.users uid with
  | none =>
    rw [hv] at hu
    rw [Prog.run_bind_err env (run_mapErr_err (run_getUser_none hf hu))]
    exact ⟨_, rfl, rfl⟩
  | some u =>
    rw [hv] at hu
    obtain ⟨hash, hg, hc⟩ := run_getUser L hf hu
    rw [Prog.run_bind_ok env (run_mapErr_ok.mpr hg)]
    simp only
    cases ha : u.accepts pwd with
    | false =>
      have : (User.authenticate P ⟨some hash, u.scopes, some u.groups⟩ pwd).run env (w.next w.store) =
          (.err .idNotAuthenticated, w.next w.store) := by
        simp only [User.authenticate, NBytes.bytes, Option.getD_some, hc, ha]
        rfl
      rw [Prog.run_bind_err env (run_mapErr_err this)]
      exact ⟨_, rfl, rfl⟩
    | true =>
      have : (User.authenticate P ⟨some hash, u.scopes, some u.groups⟩ pwd).run env (w.next w.store) =
          (.ok (), w.next w.store) := by
        simp only [User.authenticate, NBytes.bytes, Option.getD_some, hc, ha]
        rfl
      rw [Prog.run_bind_ok env (run_mapErr_ok.mpr this)]
      have hm := run_mint L hr s.tokenCryptor (some uid) (w.next w.store)
      rw [mint] at hm
      obtain ⟨t, w1, ht, hst⟩ := (Prog.run_bind_ok_iff env).mp hm
      rw [Prog.run_bind_ok env ht, Prog.run_bind_ok env (run_mapErr_ok.mpr hst)]
      refine ⟨⟨w.store, w.t + 4⟩, ?_, rfl⟩
      have hts := funext (tokenUser_string L s.tokenCryptor (some uid) ((env.now (w.t + 1)).add tokenValidity)
        (drawn env (w.t + 2) 32) (drawn env (w.t + 3) 12))
      simp only [Prog.ret_bind, Prog.run_ret, if_true, toOutcome, dirIn, Prod.mk.injEq, Outcome.ok.injEq, DirRes.token.injEq]
      exact ⟨⟨hts, rfl⟩, trivial⟩

theorem sameObjects_set {st : Store} {x : Bytes} {dt : DataType} {b : Option Bytes} (h1 : dt ≠ dtObject) (h2 : dt ≠ dtAccess) :
    SameObjects st (st.set x dt b) := fun _ =>
  ⟨Store.set_other _ _ _ _ _ _ (fun h => h1 h.2.symm), Store.set_other _ _ _ _ _ _ (fun h => h2 h.2.symm)⟩

theorem sameObjects_user {st : Store} {x : Bytes} {b : Option Bytes} : SameObjects st (st.set x dtUser b) :=
  sameObjects_set (by decide) (by decide)

theorem sameObjects_group {st : Store} {x : Bytes} {b : Option Bytes} : SameObjects st (st.set x dtGroup b) :=
  sameObjects_set (by decide) (by decide)

theorem sameObjects_of_eq {st st' : Store} (h : st' = st) : SameObjects st st' := fun _ => by rw [h]; exact ⟨rfl, rfl⟩

theorem SameObjects.trans {a b c : Store} (h : SameObjects a b) (h' : SameObjects b c) : SameObjects a c := fun id =>
  ⟨(h' id).1.trans (h id).1, (h' id).2.trans (h id).2⟩

theorem addAll_eq (l g : List GoString) : addAll l g = g.foldl setInsert l := rfl

theorem foldl_setErase_eq (gs l : List GoString) : gs.foldl setErase l = l.filter fun g => !gs.contains g := by
  induction gs generalizing l with
  | nil => exact (List.filter_eq_self.mpr (by simp)).symm
  | cons a gs ih =>
    rw [List.foldl_cons, ih, setErase, List.filter_filter]
    congr 1
    funext x
    simp [Bool.and_comm, List.contains_cons, Bool.not_or]

theorem checkMembership_eq (v : Dir) (x : GoString × DirUser) (gids : List GoString) : checkMembership (dirIdentity v x) gids =
    if gids.all (fun g => decide (g = x.1 ∨ g ∈ x.2.groups)) then .ret () else .err .idNotAuthorized := by
  have : ∀ g, g ∈ (dirIdentity v x).getIDs ↔ g = x.1 ∨ g ∈ x.2.groups := by
    intro g
    rw [Identity.getIDs, mem_foldl_setInsert]
    simp [dirIdentity]
  simp only [checkMembership, this]

theorem lookup_memberships (v : Dir) (g : GoString) (l : List GoString) (hall : ∀ g ∈ l, (v.groups g).isSome = true) :
    (lookupGroup (l.map fun g => (g, ⟨g, (v.groups g).getD 0⟩)) g).map (·.scopes) = if g ∈ l then v.groups g else none := by
  induction l with
  | nil => rfl
  | cons a l ih =>
    simp only [List.map_cons, lookupGroup]
    by_cases hag : a = g
    · subst hag
      have := hall a (by simp)
      cases hva : v.groups a with
      | none => rw [hva] at this; cases this
      | some sc => simp
    · rw [if_neg hag, ih fun g hg => hall g (by simp [hg])]
      have : g ≠ a := fun e => hag e.symm
      simp [this]

/-- The record of an existing user. -/
theorem UserAt.some {st : Store} {uid : GoString} {u : DirUser} (h : UserAt P s st uid u) : ∃ x, st uid dtUser = some x := by
  obtain ⟨_, k, n, h, _⟩ := h; exact ⟨_, h⟩

include L in
/-- One call of the Standalone provider is one step of the directory. -/
theorem run_dirCall (hf : NoFault env) (hr : RandOk env) {v : Dir} {w : World} (h : DirRel P s w.store v) (c : DirCall) :
    ∃ w', (dirProg P s c).run env w = (toOutcome (dirStep v (dirIn P s env w c) c).1, w') ∧
      DirRel P s w'.store (dirStep v (dirIn P s env w c) c).2 ∧ SameObjects w.store w'.store := by
  -- asking who the caller is
  have hident : ∀ (token : GoString) (K : Identity → Prog DirRes) (f : GoString → DirUser → Except Err DirRes × Dir),
      (∀ x w1, w1 = ((s.getIdentity P token).run env w).2 → w1.store = w.store →
        v.identify (tokenUser P s.tokenCryptor token (env.now w.t).ns) = .ok x →
        ∃ w', (K (dirIdentity v x)).run env w1 = (toOutcome (f x.1 x.2).1, w') ∧ DirRel P s w'.store (f x.1 x.2).2 ∧
          SameObjects w.store w'.store) →
      ∃ w', ((s.getIdentity P token).bind K).run env w =
          (toOutcome (v.asCaller (tokenUser P s.tokenCryptor token (env.now w.t).ns) f).1, w') ∧
        DirRel P s w'.store (v.asCaller (tokenUser P s.tokenCryptor token (env.now w.t).ns) f).2 ∧ SameObjects w.store w'.store := by
    intro token K f hK
    obtain ⟨w1, hs1, hg⟩ := run_getIdentity L hf h token
    simp only [Dir.asCaller]
    cases hi : v.identify (tokenUser P s.tokenCryptor token (env.now w.t).ns) with
    | error e =>
      rw [hi] at hg
      refine ⟨w1, Prog.run_bind_err env hg, ?_, sameObjects_of_eq hs1⟩
      simp only [hs1]
      exact h
    | ok x =>
      rw [hi] at hg
      rw [Prog.run_bind_ok env hg]
      exact hK x w1 (by rw [hg]) hs1 hi
  cases c with
  | loginUser uid pwd =>
    obtain ⟨w', h1, h2⟩ := run_loginUser L hf hr h uid pwd
    refine ⟨w', h1, ?_, sameObjects_of_eq h2⟩
    have : (dirStep v (dirIn P s env w (.loginUser uid pwd)) (.loginUser uid pwd)).2 = v := by
      simp only [dirStep]
      cases v.users uid with
      | none => rfl
      | some u => simp only; split <;> rfl
    rw [this, h2]
    exact h
  | newUser scopes =>
    simp only [dirProg, Standalone.newUser, D1.newUser, Prog.bind_eq, Prog.bind_assoc, Prog.pure_eq, Prog.ret_bind]
    rw [Prog.run_bind_ok env (run_newV4 hr w)]
    obtain ⟨hash, hg, hc⟩ := run_generatePassword (P := P) hr (w.next w.store)
    rw [Prog.run_bind_ok env hg]
    have hu := h.1 (uuidText (mkV4 (drawn env w.t 16)))
    simp only [dirStep, dirIn]
    cases hv : v.users (uuidText (mkV4 (drawn env w.t 16))) with
    | some u =>
      rw [hv] at hu
      obtain ⟨x, hx⟩ := hu.some
      have hp := run_putUser_exists (s := s) L hf hr (w := ⟨w.store, w.t + 3⟩)
        (⟨some hash, scopeUnion scopes, some []⟩ : User) hx
      refine ⟨_, Prog.run_bind_err env hp, h, sameObjects_of_eq rfl⟩
    | none =>
      rw [hv] at hu
      have hp := run_putUser_new (s := s) L hf hr (w := ⟨w.store, w.t + 3⟩)
        (⟨some hash, scopeUnion scopes, some []⟩ : User) hu
      refine ⟨_, Prog.run_bind_ok env hp, ?_, sameObjects_user⟩
      refine DirRel.setUser h _ _ _ ⟨hash, drawn env (w.t + 3) 32, drawn env (w.t + 3 + 1) 12, ?_, hc, sanitize_uuidText _, by simp, by simp⟩
      rw [Store.set_same, scopeUnion_eq]
  | changePassword uid pwd =>
    simp only [dirProg, Standalone.changeUserPassword, Prog.bind_eq, Prog.bind_assoc, Prog.pure_eq, Prog.ret_bind, dirStep]
    have hu := h.1 uid
    cases hv : v.users uid with
    | none =>
      rw [hv] at hu
      refine ⟨_, Prog.run_bind_err env (run_mapErr_err (run_getUser_none hf hu)), h, sameObjects_of_eq rfl⟩
    | some u =>
      rw [hv] at hu
      obtain ⟨hash, hg, hc⟩ := run_getUser L hf hu
      obtain ⟨hash', hg', hc'⟩ := run_generatePassword (P := P) hr (w.next w.store)
      obtain ⟨x, hx⟩ := hu.some
      obtain ⟨_, _, _, _, _, hsan, hnd, hgs⟩ := hu
      rw [Prog.run_bind_ok env (run_mapErr_ok.mpr hg)]
      simp only
      cases ha : u.accepts pwd with
      | false =>
        have : (User.changePassword P ⟨some hash, u.scopes, some u.groups⟩ pwd).run env (w.next w.store) =
            (.err .idNotAuthenticated, w.next w.store) := by
          simp only [User.changePassword, User.authenticate, NBytes.bytes, Option.getD_some, hc, ha]
          rfl
        refine ⟨_, Prog.run_bind_err env (run_mapErr_err this), h, sameObjects_of_eq rfl⟩
      | true =>
        have : (User.changePassword P ⟨some hash, u.scopes, some u.groups⟩ pwd).run env (w.next w.store) =
            (.ok (⟨some hash', u.scopes, some u.groups⟩, drawnPassword env (w.t + 1)), ⟨w.store, w.t + 3⟩) := by
          simp only [User.changePassword, User.authenticate, NBytes.bytes, Option.getD_some, hc, ha, Prog.bind_eq, Prog.ofPanic_some,
            Prog.ret_bind, Bool.not_true, Bool.false_eq_true, if_false]
          rw [Prog.run_bind_ok env hg']
          rfl
        rw [Prog.run_bind_ok env (run_mapErr_ok.mpr this)]
        have hp := run_putUser_update (s := s) L hf hr (w := ⟨w.store, w.t + 3⟩) (⟨some hash', u.scopes, some u.groups⟩ : User) hx
        refine ⟨_, Prog.run_bind_ok env hp, ?_, sameObjects_user⟩
        exact DirRel.setUser h _ _ _ ⟨hash', _, _, Store.set_same _ _ _ _, hc', hsan, hnd, hgs⟩
  | getIdentity token =>
    simp only [dirProg, dirStep, dirIn, DirCall.token]
    refine hident token _ _ ?_
    intro x w1 _ hs1 hi
    refine ⟨w1, ?_, by rw [hs1]; exact h, sameObjects_of_eq hs1⟩
    have : (fun g => (lookupGroup (dirIdentity v x).groups g).map (·.scopes)) = v.memberships x.2 := by
      funext g
      simp only [dirIdentity, Dir.memberships]
      have hall : ∀ g ∈ x.2.groups, (v.groups g).isSome = true := by
        simp only [Dir.identify] at hi
        split at hi
        · cases hi
        · split at hi
          · cases hi
          · split at hi
            · rename_i hall
              cases hi
              exact fun g hg => List.all_eq_true.mp hall g hg
            · cases hi
      exact lookup_memberships v g _ hall
    simp only [Prog.run_ret, this]
    rfl
  | deleteUser token uid =>
    simp only [dirProg, dirStep, dirIn, DirCall.token, Standalone.deleteUser, Prog.bind_eq, Prog.bind_assoc]
    refine hident token _ _ ?_
    intro x w1 _ hs1 hi
    refine ⟨_, Prog.run_bind_ok env (run_ioDelete hf .io w1 uid dtUser), ?_, ?_⟩
    · simp only [hs1]
      exact DirRel.setUser h _ _ _ (Store.set_same _ _ _ _)
    · simp only [hs1]
      exact sameObjects_user
  | addUser token uid gids =>
    simp only [dirProg, dirStep, dirIn, DirCall.token, Standalone.addUserToGroups, Prog.bind_eq, Prog.bind_assoc]
    refine hident token _ _ ?_
    intro x w1 _ hs1 hi
    rw [checkMembership_eq]
    cases hall : gids.all (fun g => decide (g = x.1 ∨ g ∈ x.2.groups)) with
    | false => exact ⟨w1, rfl, by simpa [hs1] using h, sameObjects_of_eq hs1⟩
    | true =>
      simp only [if_true, Prog.ret_bind]
      have hu := h.1 uid
      rw [← hs1] at hu
      cases hv : v.users uid with
      | none =>
        rw [hv] at hu
        refine ⟨_, Prog.run_bind_err env (run_getUser_none hf hu), by simpa [hs1] using h, sameObjects_of_eq hs1⟩
      | some u =>
        rw [hv] at hu
        obtain ⟨hash, hg, hc⟩ := run_getUser L hf hu
        obtain ⟨y, hy⟩ := hu.some
        obtain ⟨_, _, _, _, _, hsan, hnd, hgs⟩ := hu
        rw [Prog.run_bind_ok env hg]
        simp only [User.addGroups, addToSet_some, Option.map_some, Prog.ofPanic_some, Prog.ret_bind]
        have hp := run_putUser_update (s := s) L hf hr (w := w1.next w1.store)
          (⟨some hash, u.scopes, some (gids.foldl setInsert u.groups)⟩ : User) hy
        refine ⟨_, Prog.run_bind_ok env hp, ?_, ?_⟩
        · simp only [hs1]
          refine DirRel.setUser h _ _ _ ⟨hash, _, _, Store.set_same _ _ _ _, hc, hsan, foldl_setInsert_nodup _ hnd, ?_⟩
          intro g hg
          rcases (mem_foldl_setInsert _ _ _).mp hg with hg | hg
          · exact hgs g hg
          · have hx := List.all_eq_true.mp hall g hg
            simp only [decide_eq_true_eq] at hx
            have hmem : UserAt P s w.store x.1 x.2 := by
              have hu := h.1 x.1
              simp only [Dir.identify] at hi
              split at hi
              · cases hi
              · split at hi
                · cases hi
                · rename_i hvu
                  split at hi
                  · cases hi
                    rw [hvu] at hu
                    exact hu
                  · cases hi
            obtain ⟨_, _, _, _, _, hsan', _, hgs'⟩ := hmem
            rcases hx with rfl | hx
            · exact hsan'
            · exact hgs' g hx
        · simp only [hs1]
          exact sameObjects_user
  | removeUser token uid gids =>
    simp only [dirProg, dirStep, dirIn, DirCall.token, Standalone.removeUserFromGroups, Prog.bind_eq, Prog.bind_assoc]
    refine hident token _ _ ?_
    intro x w1 _ hs1 hi
    rw [checkMembership_eq]
    cases hall : gids.all (fun g => decide (g = x.1 ∨ g ∈ x.2.groups)) with
    | false => exact ⟨w1, rfl, by simpa [hs1] using h, sameObjects_of_eq hs1⟩
    | true =>
      simp only [if_true, Prog.ret_bind]
      have hu := h.1 uid
      rw [← hs1] at hu
      cases hv : v.users uid with
      | none =>
        rw [hv] at hu
        refine ⟨_, Prog.run_bind_err env (run_getUser_none hf hu), by simpa [hs1] using h, sameObjects_of_eq hs1⟩
      | some u =>
        rw [hv] at hu
        obtain ⟨hash, hg, hc⟩ := run_getUser L hf hu
        obtain ⟨y, hy⟩ := hu.some
        obtain ⟨_, _, _, _, _, hsan, hnd, hgs⟩ := hu
        rw [Prog.run_bind_ok env hg]
        simp only [User.removeGroups, removeFromSet, Option.map_some, foldl_setErase_eq]
        have hp := run_putUser_update (s := s) L hf hr (w := w1.next w1.store)
          (⟨some hash, u.scopes, some (u.groups.filter fun g => !gids.contains g)⟩ : User) hy
        refine ⟨_, Prog.run_bind_ok env hp, ?_, ?_⟩
        · simp only [hs1]
          exact DirRel.setUser h _ _ _ ⟨hash, _, _, Store.set_same _ _ _ _, hc, hsan, hnd.filter _,
            fun g hg => hgs g ((List.mem_filter.mp hg).1)⟩
        · simp only [hs1]
          exact sameObjects_user
  | newGroup token scopes =>
    simp only [dirProg, dirStep, dirIn, DirCall.token, Standalone.newGroup, Prog.bind_eq, Prog.bind_assoc, Prog.pure_eq, Prog.ret_bind]
    refine hident token _ _ ?_
    intro x w1 hw1 hs1 hi
    rw [← hw1]
    rw [Prog.run_bind_ok env (run_newV4 hr w1)]
    have hu := h.2 (uuidText (mkV4 (drawn env w1.t 16)))
    cases hv : v.groups (uuidText (mkV4 (drawn env w1.t 16))) with
    | some sc =>
      rw [hv] at hu
      obtain ⟨_, _, hx, _⟩ := hu
      have hp := run_putGroup_exists (s := s) L hf hr (w := w1.next w1.store) (D1.newGroup scopes) (by rw [← hs1] at hx; exact hx)
      refine ⟨_, Prog.run_bind_err env hp, by simpa [hs1] using h, sameObjects_of_eq hs1⟩
    | none =>
      rw [hv] at hu
      have hp := run_putGroup_new (s := s) L hf hr (w := w1.next w1.store) (D1.newGroup scopes) (by rw [← hs1] at hu; exact hu)
      rw [Prog.run_bind_ok env hp]
      have hR1 : DirRel P s (w.store.set (uuidText (mkV4 (drawn env w1.t 16))) dtGroup
          (some (sealedGroup P s (uuidText (mkV4 (drawn env w1.t 16))) (D1.newGroup scopes) (drawn env (w1.t + 1) 32)
            (drawn env (w1.t + 1 + 1) 12)).toJ.render)) (v.setGroup (uuidText (mkV4 (drawn env w1.t 16))) (allScopes scopes)) := by
        refine DirRel.setGroup h _ _ _ ⟨drawn env (w1.t + 1) 32, drawn env (w1.t + 1 + 1) 12, ?_, sanitize_uuidText _⟩
        rw [Store.set_same, D1.newGroup, scopeUnion_eq]
      have hmem : UserAt P s w.store x.1 x.2 ∧ v.users x.1 = some x.2 := by
        have hu := h.1 x.1
        simp only [Dir.identify] at hi
        split at hi
        · cases hi
        · split at hi
          · cases hi
          · rename_i hvu
            split at hi
            · cases hi
              rw [hvu] at hu
              exact ⟨hu, hvu⟩
            · cases hi
      have hu1 := hR1.1 x.1
      have : (v.setGroup (uuidText (mkV4 (drawn env w1.t 16))) (allScopes scopes)).users x.1 = some x.2 := hmem.2
      rw [this] at hu1
      simp only [hs1, dirIdentity]
      have hso := sameObjects_group (st := w.store) (x := uuidText (mkV4 (drawn env w1.t 16)))
        (b := some (sealedGroup P s (uuidText (mkV4 (drawn env w1.t 16))) (D1.newGroup scopes) (drawn env (w1.t + 1) 32)
            (drawn env (w1.t + 1 + 1) 12)).toJ.render)
      revert hR1 hu1 hso
      generalize w.store.set (uuidText (mkV4 (drawn env w1.t 16))) dtGroup
          (some (sealedGroup P s (uuidText (mkV4 (drawn env w1.t 16))) (D1.newGroup scopes) (drawn env (w1.t + 1) 32)
            (drawn env (w1.t + 1 + 1) 12)).toJ.render) = st1
      intro hR1 hu1 hso
      obtain ⟨hash, hg, hc⟩ := run_getUser L hf (env := env) (w := ⟨st1, w1.t + 1 + 3⟩) hu1
      obtain ⟨y, hy⟩ := UserAt.some hu1
      obtain ⟨_, _, _, _, _, hsan, hnd, hgs⟩ := hu1
      rw [Prog.run_bind_ok env hg]
      simp only [User.addGroups, addToSet_some, Option.map_some, Prog.ofPanic_some, Prog.ret_bind]
      have hp2 := run_putUser_update (s := s) L hf hr (w := ⟨st1, w1.t + 1 + 3 + 1⟩)
        (⟨some hash, x.2.scopes, some ([uuidText (mkV4 (drawn env w1.t 16))].foldl setInsert x.2.groups)⟩ : User) hy
      refine ⟨_, Prog.run_bind_ok env hp2, ?_, ?_⟩
      · refine DirRel.setUser hR1 _ _ _ ⟨hash, _, _, Store.set_same _ _ _ _, hc, hsan, foldl_setInsert_nodup _ hnd, ?_⟩
        intro g hg
        rcases (mem_foldl_setInsert _ _ _).mp hg with hg | hg
        · exact hgs g hg
        · simp only [List.mem_singleton] at hg
          rw [hg]
          exact sanitize_uuidText _
      · exact hso.trans sameObjects_user

end

end D1
