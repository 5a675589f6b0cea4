import Verif.Props.DirLinear
import Verif.Props.Story
import Verif.Props.NewIds
/-!
# Concurrent changes of a user: C70

Full statement: if several calls of the Standalone provider run concurrently and report success, then every acknowledged change of a user is
in effect afterwards, unless another one undid it.  False (`C70_revoked_member_returns`, `C70_password_change_lost`).

What holds under any interleaving, any crashes and any IO failures, as long as nobody deletes the user: it keeps its scopes, the groups that
nobody removes it from, and gets only groups that somebody adds it to or that it creates; its password is the old one or one that was
generated for it.
-/
namespace D1
open Spec Prog

section
variable {P : Prims} (L : P.Laws) {s : Standalone} {uid : GoString} {sc : Scope} {lo hi : GoString → Prop} {A : (GoString → Bool) → Prop}

/-- The user has these scopes, groups between the bounds, and a password record out of a set. -/
def Fits (sc : Scope) (lo hi : GoString → Prop) (A : (GoString → Bool) → Prop) (u : DirUser) : Prop :=
  u.scopes = sc ∧ Between lo hi (fun x => decide (x ∈ u.groups)) ∧ A u.accepts

/-- Such a user is stored. -/
def Kept (P : Prims) (s : Standalone) (uid : GoString) (sc : Scope) (lo hi : GoString → Prop) (A : (GoString → Bool) → Prop) (st : Store) : Prop :=
  ∃ u, UserAt P s st uid u ∧ Fits sc lo hi A u

local notation "KEPT" => Kept P s uid sc lo hi A

theorem kept_frame {e : Eff} (h1 : e.target ≠ some (uid, dtUser)) {st st' : Store} {r : e.Resp} (h : KEPT st) (hst : AnyStep st e r st') :
    KEPT st' := by
  obtain ⟨u, hu, h⟩ := h
  exact ⟨u, UserRel.congr (u := some u) (hst.frame h1) hu, h⟩

theorem kept_put {id b : Bytes} {dt : DataType} {st st' : Store} {r : Except IoErr Unit} (h : KEPT st) (hst : AnyStep st (.put id dt b) r st') :
    KEPT st' := by
  rcases anyStep_put hst with ⟨h1, rfl⟩ | rfl
  · obtain ⟨u, hu, h⟩ := h
    refine ⟨u, UserRel.congr (u := some u) (Store.set_other _ _ _ _ _ _ ?_) hu, h⟩
    rintro ⟨rfl, rfl⟩
    obtain ⟨x, hx⟩ := hu.some
    rw [h1] at hx
    cases hx
  · exact h

/-- Effects that keep the user. -/
def Keeps (P : Prims) (s : Standalone) (uid : GoString) (sc : Scope) (lo hi : GoString → Prop) (A : (GoString → Bool) → Prop) (e : Eff) : Prop :=
  ∀ st r st', Kept P s uid sc lo hi A st → AnyStep st e r st' → Kept P s uid sc lo hi A st'

local notation "KEEPS" => Keeps P s uid sc lo hi A

theorem keeps_rand (n : Nat) : KEEPS (.rand n) := fun _ _ _ h hst => kept_frame (by simp [Eff.target]) h hst
theorem keeps_now : KEEPS .now := fun _ _ _ h hst => kept_frame (by simp [Eff.target]) h hst
theorem keeps_get (id : Bytes) (dt : DataType) : KEEPS (.get id dt) := fun _ r _ h hst => by
  obtain ⟨rfl, -⟩ := anyStep_get (r := r) hst
  exact h
theorem keeps_put (id : Bytes) (dt : DataType) (b : Bytes) : KEEPS (.put id dt b) := fun _ r _ h hst => kept_put (r := r) h hst
theorem keeps_update {id : Bytes} (hid : id ≠ uid) (b : Bytes) : KEEPS (.update id dtUser b) :=
  fun _ _ _ h hst => kept_frame (by simp [Eff.target, hid]) h hst
theorem keeps_delete {id : Bytes} (hid : id ≠ uid) : KEEPS (.delete id dtUser) :=
  fun _ _ _ h hst => kept_frame (by simp [Eff.target, hid]) h hst

theorem kept_keeps {α : Type} {R : Outcome α → Prop} {p : Prog α} (hp : AllEff KEEPS p) (ho : AllOut R p) : Safe AnyStep KEPT R p :=
  safe_frame (Q := KEEPS) (fun _ h => h) hp ho

/-- What is read of the user. -/
def UserOk (P : Prims) (uid : GoString) (sc : Scope) (lo hi : GoString → Prop) (A : (GoString → Bool) → Prop) (x : User) : Prop :=
  ∃ u, Stored P u x ∧ Fits sc lo hi A u ∧ sanitize uid = uid ∧ u.groups.Nodup ∧ ∀ g ∈ u.groups, sanitize g = g

include L in
theorem readUser_some {st : Store} {u : DirUser} (h : UserAt P s st uid u) : ∃ b x, st uid dtUser = some b ∧
    readUser P s uid (.ok b : Except IoErr Bytes) = .ret x ∧ Stored P u x := by
  obtain ⟨b, hb⟩ := h.some
  obtain ⟨r, x, h1, h2, h3⟩ := exec_getUser_some L (env := toyEnv) toyEnv_noFault (w := ⟨st, 0⟩) h
  rw [exec_none toyEnv_noFault] at h1
  simp only [Store.exec, hb] at h1
  cases h1
  exact ⟨b, x, hb, h2, h3⟩

include L in
theorem kept_getUser : Safe AnyStep KEPT (fun out => match out with
    | .ok x => UserOk P uid sc lo hi A x
    | .err _ => True
    | _ => False) (s.getUser P uid) := by
  rw [getUser_op]
  intro st r st' h hst
  obtain ⟨rfl, hr⟩ := anyStep_get (r := r) hst
  refine ⟨h, ?_⟩
  obtain ⟨u, hu, hfit⟩ := h
  obtain ⟨b, x, hb, h2, h3⟩ := readUser_some L hu
  obtain ⟨_, _, _, _, _, q1, q2, q3⟩ := hu
  rw [hb] at hr
  rcases hr with rfl | rfl
  · rw [h2]
    exact ⟨u, h3, hfit, q1, q2, q3⟩
  · trivial

include L in
/-- Writing the user back. -/
theorem kept_putUser {x : User} (hx : UserOk P uid sc lo hi A x) : Safe AnyStep KEPT (fun _ => True) (s.putUser P uid x true) := by
  rw [Standalone.putUser, User.seal, Prog.bind_eq, Prog.bind_eq, Prog.bind_assoc]
  refine (safe_encrypt L s.userCryptor _ _).bind ?_ (fun _ _ => trivial) (fun h => h.elim) (fun h => h.elim)
  rintro r ⟨k, n, rfl⟩
  show Safe AnyStep KEPT _ (ioUpdate (onNotFound .userNotFound) uid dtUser (sealedUser P s uid x k n).toJ.render)
  rw [ioUpdate]
  intro st r st' h hst
  obtain ⟨h1, -⟩ := anyStep_update (r := r) hst
  refine ⟨?_, kept_keeps (by cases r <;> trivial) allOut_true⟩
  rcases h1 with rfl | rfl
  · exact h
  · obtain ⟨u, ⟨hash, rfl, hc⟩, hfit, q1, q2, q3⟩ := hx
    exact ⟨u, ⟨hash, k, n, Store.set_same _ _ _ _, hc, q1, q2, q3⟩, hfit⟩

theorem fetchGroups_keys (l : List GoString) : AllOut (fun out => ∀ gs, out = .ok gs → gs.map Prod.fst = l) (s.fetchGroups P l) := by
  induction l with
  | nil => rintro _ ⟨⟩; rfl
  | cons x l ih =>
    rw [Standalone.fetchGroups, Prog.bind_eq]
    refine (allOut_true (p := s.getGroup P x)).bind ?_ (fun _ _ _ h => by cases h) (fun _ _ h => by cases h) (fun _ _ h => by cases h)
    intro g _
    rw [Prog.bind_eq]
    refine ih.bind ?_ (fun _ _ _ h => by cases h) (fun _ _ h => by cases h) (fun _ _ h => by cases h)
    rintro rest hrest _ ⟨⟩
    rw [List.map_cons, hrest _ rfl]

/-- What is known of the caller. -/
def IdentityOk (P : Prims) (s : Standalone) (uid : GoString) (sc : Scope) (lo hi : GoString → Prop) (token : GoString) (i : Identity) : Prop :=
  Names P s token i.id ∧ (i.id = uid → i.scopes = sc ∧ Between lo hi (fun x => decide (x ∈ i.groups.map Prod.fst)))

include L in
theorem kept_getIdentity (token : GoString) : Safe AnyStep KEPT (fun out => ∀ i, out = .ok i → IdentityOk P s uid sc lo hi token i)
    (s.getIdentity P token) := by
  rw [Standalone.getIdentity]
  cases ht : tokenFromString P token with
  | error e => rintro _ ⟨⟩
  | ok t =>
    simp only
    have hun : Safe AnyStep KEPT (fun out => ∀ tk, out = .ok tk → Names P s token tk.plaintext.bytes) (t.unseal P s.tokenCryptor) := by
      refine kept_keeps (allEff_tokenUnseal keeps_now _ _) ?_
      rw [SealedToken.unseal]
      intro now
      show AllOut _ (if t.expiryTime.before now = true then _ else _)
      by_cases hexp : t.expiryTime.ns < GoTime.ns now
      · rw [if_pos (by show decide _ = true; simpa using hexp)]
        rintro _ ⟨⟩
      · rw [if_neg (by show ¬ decide _ = true; simpa using hexp)]
        cases hd : s.tokenCryptor.decrypt P J.toBytes (.ofTime P t.expiryTime) t.wrappedKey.bytes t.ciphertext.bytes with
        | error e => rintro _ ⟨⟩
        | ok p =>
          rintro _ ⟨⟩
          refine ⟨GoTime.ns now, ?_⟩
          rw [tokenUser, ht]
          simp only
          rw [if_neg hexp, hd]
    refine hun.attempt ?_ (fun _ _ => by rintro _ ⟨⟩) (fun _ => by rintro _ ⟨⟩) (fun _ => by rintro _ ⟨⟩)
    intro tk htk
    have hn := htk tk rfl
    simp only [Prog.bind_eq, Prog.pure_eq]
    by_cases hid : tk.plaintext.bytes = uid
    · rw [hid]
      refine (kept_getUser L).bind ?_ (fun _ _ => by rintro _ ⟨⟩) (fun _ => by rintro _ ⟨⟩) (fun _ => by rintro _ ⟨⟩)
      rintro x ⟨u, ⟨hash, rfl, -⟩, ⟨h1, h2, -⟩, -⟩
      refine (kept_keeps (allEff_fetchGroups (fun _ => keeps_get _ _) _) (fetchGroups_keys _)).bind ?_ (fun _ _ => by rintro _ ⟨⟩) (fun _ => by rintro _ ⟨⟩)
        (fun _ => by rintro _ ⟨⟩)
      rintro gs hgs _ ⟨⟩
      refine ⟨hid ▸ hn, fun _ => ⟨h1, ?_⟩⟩
      rw [hgs gs rfl]
      exact h2
    · refine (kept_keeps (allEff_getUser (keeps_get _ _)) allOut_true).bind ?_ (fun _ _ => by rintro _ ⟨⟩) (fun _ => by rintro _ ⟨⟩)
        (fun _ => by rintro _ ⟨⟩)
      intro x _
      refine (kept_keeps (allEff_fetchGroups (fun _ => keeps_get _ _) _) allOut_true).bind ?_ (fun _ _ => by rintro _ ⟨⟩) (fun _ => by rintro _ ⟨⟩)
        (fun _ => by rintro _ ⟨⟩)
      rintro gs _ _ ⟨⟩
      exact ⟨hn, fun h => absurd h hid⟩

include L in
theorem kept_getUser_mapErr (e : Err) : Safe AnyStep KEPT (fun out => ∀ x, out = .ok x → UserOk P uid sc lo hi A x) ((s.getUser P uid).mapErr e) := by
  refine (kept_getUser L).attempt (fun x hx => ?_) (fun _ _ => by rintro _ ⟨⟩) (fun _ => by rintro _ ⟨⟩) (fun _ => by rintro _ ⟨⟩)
  rintro _ ⟨⟩
  exact hx

/-- The call does to the user only what the bounds allow. -/
def Gentle (P : Prims) (s : Standalone) (uid : GoString) (lo hi : GoString → Prop) (A : (GoString → Bool) → Prop) : DirCall → Prop
  | .addUser _ u gs => u = uid → ∀ g ∈ gs, hi g ∧ sanitize g = g
  | .removeUser _ u gs => u = uid → ∀ g ∈ gs, ¬ lo g
  | .deleteUser _ u => u ≠ uid
  | .changePassword u _ => u = uid → ∀ (b : BytesN passwordLength) (salt : BytesN saltLength), A (acceptsWith P salt.1 (b64Enc true b.1))
  | .newGroup t _ => Names P s t uid → ∀ b, hi (newName b)
  | _ => True

/-- What a call that succeeds says about the user: a password that was let in is one that some record out of the set accepts, and `GetIdentity`
returns the scopes and groups between the bounds. -/
def DirAnswer (uid : GoString) (sc : Scope) (lo hi : GoString → Prop) (A : (GoString → Bool) → Prop) : DirCall → Outcome DirRes → Prop
  | .loginUser u p, .ok _ | .changePassword u p, .ok _ => u = uid → ∃ acc, A acc ∧ acc p = true
  | _, .ok (.identity id sc' groups) => id = uid → sc' = sc ∧ Between lo hi fun x => (groups x).isSome
  | _, _ => True

theorem lookupGroup_isSome (l : List (GoString × AccessGroup)) (x : GoString) :
    (lookupGroup l x).isSome = decide (x ∈ l.map Prod.fst) := by
  induction l with
  | nil => rfl
  | cons a l ih =>
    obtain ⟨k, g⟩ := a
    by_cases h : k = x
    · subst h; simp [lookupGroup]
    · simp [lookupGroup, h, ih, Ne.symm h]

theorem dirAnswer_bad {c : DirCall} {out : Outcome DirRes} (h : ∀ r, out ≠ .ok r) : DirAnswer uid sc lo hi A c out := by
  cases out with
  | ok r => exact absurd rfl (h r)
  | _ => cases c <;> trivial

theorem keeps_noUser {e : Eff} (h : e.target ≠ some (uid, dtUser)) : KEEPS e := fun _ _ _ h' hst => kept_frame h h' hst

include L in
theorem kept_newUser (scs : List Scope) : Safe AnyStep KEPT (fun _ => True) (s.newUser P scs) := by
  refine kept_keeps ?_ allOut_true
  refine AllEff.bind (allEff_newV4 keeps_rand) fun _ => AllEff.bind (AllEff.bind (allEff_generatePassword keeps_rand) fun _ => trivial) fun _ => ?_
  refine AllEff.bind ?_ fun _ => trivial
  exact AllEff.bind (AllEff.bind (allEff_encrypt keeps_rand _ _ _) fun _ => trivial) fun _ => allEff_ioPut (keeps_put _ _ _)

include L in
theorem kept_loginUser (p : GoString) : Safe AnyStep KEPT (fun out => ∀ r, out = .ok r → ∃ acc, A acc ∧ acc p = true) (s.loginUser P uid p) := by
  rw [loginUser_eq]
  refine (kept_getUser_mapErr L _).bind ?_ (fun _ _ => by rintro _ ⟨⟩) (fun _ => by rintro _ ⟨⟩) (fun _ => by rintro _ ⟨⟩)
  intro x hx
  obtain ⟨u, hu, ⟨-, -, hacc⟩, -⟩ := hx x rfl
  rw [hu.authenticate]
  cases ha : u.accepts p with
  | false => rintro _ ⟨⟩
  | true =>
    refine (kept_keeps ?_ allOut_true).mono fun _ _ _ _ => ⟨_, hacc, ha⟩
    refine AllEff.bind (AllEff.mapErr trivial) fun _ => ?_
    refine AllEff.bind (AllEff.bind (allEff_now keeps_now) fun _ => trivial) fun _ => ?_
    exact AllEff.bind (AllEff.mapErr (AllEff.bind (allEff_encrypt keeps_rand _ _ _) fun _ => trivial)) fun _ => trivial

theorem generatePassword_out : AllOut (fun out => ∀ r, out = .ok r → ∃ (b : BytesN passwordLength) (salt : BytesN saltLength),
    ∀ p, comparePassword P p r.2 = some (acceptsWith P salt.1 (b64Enc true b.1) p)) (generatePassword P) := by
  rw [generatePassword, Prog.bind_eq]
  refine (allOut_true (p := randBytes passwordLength)).bind ?_ (fun _ _ => by rintro _ ⟨⟩) (fun _ => by rintro _ ⟨⟩) (fun _ => by rintro _ ⟨⟩)
  intro b _
  rw [Prog.bind_eq]
  refine (allOut_true (p := randBytes saltLength)).bind ?_ (fun _ _ => by rintro _ ⟨⟩) (fun _ => by rintro _ ⟨⟩) (fun _ => by rintro _ ⟨⟩)
  rintro salt _ _ ⟨⟩
  refine ⟨b, salt, fun p => ?_⟩
  have hl : salt.1.length = saltLength := salt.2
  rw [comparePassword, if_neg (by rw [List.length_append]; omega)]
  simp only [List.take_left' hl, List.drop_left' hl, acceptsWith]

include L in
theorem kept_changePassword (hA : ∀ (b : BytesN passwordLength) (salt : BytesN saltLength), A (acceptsWith P salt.1 (b64Enc true b.1))) (p : GoString) :
    Safe AnyStep KEPT (fun out => ∀ r, out = .ok r → ∃ acc, A acc ∧ acc p = true) (s.changeUserPassword P uid p) := by
  rw [Standalone.changeUserPassword, Prog.bind_eq]
  refine (kept_getUser_mapErr L _).bind ?_ (fun _ _ => by rintro _ ⟨⟩) (fun _ => by rintro _ ⟨⟩) (fun _ => by rintro _ ⟨⟩)
  intro x hx
  obtain ⟨u, hu, ⟨h1, h2, hacc⟩, q1, q2, q3⟩ := hx x rfl
  rw [User.changePassword, hu.authenticate]
  cases ha : u.accepts p with
  | false => rintro _ ⟨⟩
  | true =>
    simp only [if_true, Prog.bind_eq, ret_bind]
    refine (Safe.mono (R := fun out => ∀ r, out = .ok r → UserOk P uid sc lo hi A r.1) (fun _ h => h) ?_).bind ?_ (fun _ _ => by rintro _ ⟨⟩)
      (fun _ => by rintro _ ⟨⟩) (fun _ => by rintro _ ⟨⟩)
    · refine Safe.attempt (R := fun out => ∀ r, out = .ok r → UserOk P uid sc lo hi A r.1) ?_ (fun r hr => ?_) (fun _ _ => by rintro _ ⟨⟩)
        (fun _ => by rintro _ ⟨⟩) (fun _ => by rintro _ ⟨⟩)
      · refine (kept_keeps (allEff_generatePassword keeps_rand) generatePassword_out).bind ?_ (fun _ _ => by rintro _ ⟨⟩)
          (fun _ => by rintro _ ⟨⟩) (fun _ => by rintro _ ⟨⟩)
        rintro r hr _ ⟨⟩
        obtain ⟨b, salt, hc⟩ := hr r rfl
        obtain ⟨hash, rfl, -⟩ := hu
        exact ⟨{ u with accepts := acceptsWith P salt.1 (b64Enc true b.1) }, ⟨r.2, rfl, hc⟩, ⟨h1, h2, hA b salt⟩, q1, q2, q3⟩
      · rintro _ ⟨⟩
        exact hr r rfl
    · intro r hr
      refine (kept_putUser L (hr r rfl)).bind (fun _ _ => ?_) (fun _ _ => by rintro _ ⟨⟩) (fun _ => by rintro _ ⟨⟩) (fun _ => by rintro _ ⟨⟩)
      exact fun _ _ => ⟨_, hacc, ha⟩

theorem UserOk.groups {x : User} (h : UserOk P uid sc lo hi A x) {upd : List GoString → List GoString} {y : User}
    (hy : ∀ l, x.groups = some l → y = { x with groups := some (upd l) }) (hn : ∀ l, l.Nodup → (upd l).Nodup)
    (hin : ∀ l y, y ∈ upd l → y ∈ l ∨ (hi y ∧ sanitize y = y)) (hout : ∀ l y, y ∈ l → lo y → y ∈ upd l) : UserOk P uid sc lo hi A y := by
  obtain ⟨u, ⟨hash, rfl, hc⟩, ⟨h1, h2, h3⟩, q1, q2, q3⟩ := h
  refine ⟨{ u with groups := upd u.groups }, ⟨hash, hy _ rfl, hc⟩, ⟨h1, ⟨fun y hl => ?_, fun y hy => ?_⟩, h3⟩, q1, hn _ q2, fun g hg => ?_⟩
  · have := h2.1 y hl
    simp only [decide_eq_true_eq] at this ⊢
    exact hout _ _ this hl
  · simp only [decide_eq_true_eq] at hy
    rcases hin _ _ hy with h | h
    · exact h2.2 y (by simpa using h)
    · exact h.1
  · rcases hin _ _ hg with h | h
    · exact q3 g h
    · exact h.2

include L in
theorem kept_addUser (t : GoString) {gs : List GoString} (hgs : ∀ g ∈ gs, hi g ∧ sanitize g = g) :
    Safe AnyStep KEPT (fun _ => True) (s.addUserToGroups P t uid gs) := by
  refine (kept_keeps (allEff_getIdentity keeps_now (fun _ => keeps_get _ _) (fun _ => keeps_get _ _) t) allOut_true).bind (fun i _ => ?_)
    (fun _ _ => trivial) (fun _ => trivial) (fun _ => trivial)
  refine (kept_keeps (allEff_checkMembership _ _) allOut_true).bind (fun _ _ => ?_) (fun _ _ => trivial) (fun _ => trivial) (fun _ => trivial)
  refine (kept_getUser L).bind (fun x hx => ?_) (fun _ _ => trivial) (fun _ => trivial) (fun _ => trivial)
  have hx' := hx
  obtain ⟨u, ⟨hash, rfl, -⟩, -⟩ := hx
  simp only [User.addGroups, addToSet_some, Option.map_some, Prog.ofPanic_some, Prog.bind_eq, ret_bind]
  refine kept_putUser L (hx'.groups (upd := fun l => gs.foldl setInsert l) (fun l hl => by cases hl; rfl) (fun l h => foldl_setInsert_nodup _ h) (fun l y h => ?_)
    (fun l y h _ => (mem_foldl_setInsert _ _ _).mpr (.inl h)))
  exact ((mem_foldl_setInsert _ _ _).mp h).imp_right (hgs y)

include L in
theorem kept_removeUser (t : GoString) {gs : List GoString} (hgs : ∀ g ∈ gs, ¬ lo g) :
    Safe AnyStep KEPT (fun _ => True) (s.removeUserFromGroups P t uid gs) := by
  refine (kept_keeps (allEff_getIdentity keeps_now (fun _ => keeps_get _ _) (fun _ => keeps_get _ _) t) allOut_true).bind (fun i _ => ?_)
    (fun _ _ => trivial) (fun _ => trivial) (fun _ => trivial)
  refine (kept_keeps (allEff_checkMembership _ _) allOut_true).bind (fun _ _ => ?_) (fun _ _ => trivial) (fun _ => trivial) (fun _ => trivial)
  refine (kept_getUser L).bind (fun x hx => ?_) (fun _ _ => trivial) (fun _ => trivial) (fun _ => trivial)
  refine kept_putUser L (UserOk.groups hx (upd := fun l => l.filter fun g => !gs.contains g) (fun l hl => ?_) (fun l h => h.filter _)
    (fun l y h => .inl (List.mem_filter.mp h).1) (fun l y h hl => List.mem_filter.mpr ⟨h, ?_⟩))
  · simp only [User.removeGroups, removeFromSet, hl, Option.map_some, foldl_setErase_eq]
  · simp only [Bool.not_eq_true', List.contains_eq_mem, decide_eq_false_iff_not]
    exact fun h => hgs y h hl

include L in
theorem kept_newGroup {t : GoString} (hi' : Names P s t uid → ∀ b, hi (newName b)) (scs : List Scope) :
    Safe AnyStep KEPT (fun _ => True) (s.newGroup P t scs) := by
  refine (kept_getIdentity L t).bind (fun i h => ?_) (fun _ _ => trivial) (fun _ => trivial) (fun _ => trivial)
  have hid := (h i rfl).1
  refine (kept_keeps (R := fun out => ∀ g, out = .ok g → ∃ b, g = mkV4 b) (allEff_newV4 keeps_rand) ?_).bind (fun gid hg => ?_)
    (fun _ _ => trivial) (fun _ => trivial) (fun _ => trivial)
  · refine (allOut_true (p := randBytes 16)).bind ?_ (fun _ _ => by rintro _ ⟨⟩) (fun _ => by rintro _ ⟨⟩) (fun _ => by rintro _ ⟨⟩)
    rintro b _ _ ⟨⟩
    exact ⟨b, rfl⟩
  obtain ⟨b, rfl⟩ := hg gid rfl
  refine (kept_keeps (allEff_putGroup keeps_rand (fun _ => keeps_put _ _ _)) allOut_true).bind (fun _ _ => ?_) (fun _ _ => trivial) (fun _ => trivial)
    (fun _ => trivial)
  by_cases hu : i.id = uid
  · rw [hu] at hid ⊢
    refine (kept_getUser L).bind (fun x hx => ?_) (fun _ _ => trivial) (fun _ => trivial) (fun _ => trivial)
    have hx' := hx
    obtain ⟨u, ⟨hash, rfl, -⟩, -⟩ := hx
    simp only [User.addGroups, addToSet_some, Option.map_some, Prog.ofPanic_some, Prog.bind_eq, ret_bind]
    refine (kept_putUser L (hx'.groups (upd := fun l => [newName b].foldl setInsert l) (fun l hl => by cases hl; rfl) (fun l h => foldl_setInsert_nodup _ h)
      (fun l y h => ?_) (fun l y h _ => (mem_foldl_setInsert _ _ _).mpr (.inl h)))).bind (fun _ _ => trivial) (fun _ _ => trivial)
      (fun _ => trivial) (fun _ => trivial)
    refine ((mem_foldl_setInsert _ _ _).mp h).imp_right fun h => ?_
    obtain rfl := List.mem_singleton.mp h
    exact ⟨hi' hid b, sanitize_uuidText _⟩
  · refine kept_keeps (AllEff.bind (allEff_getUser (keeps_get _ _)) fun _ => AllEff.bind (allEff_ofPanic _) fun _ =>
      AllEff.bind (allEff_putUser keeps_rand (fun _ => keeps_put _ _ _) (fun _ => keeps_update hu _)) fun _ => trivial) allOut_true

include L in
theorem kept_dirCall {c : DirCall} (hm : Gentle P s uid lo hi A c) : Safe AnyStep KEPT (DirAnswer uid sc lo hi A c) (dirProg P s c) := by
  cases c with
  | newUser sc' => exact (kept_newUser L sc').bind (fun r _ => trivial) (fun _ _ => trivial) (fun _ => trivial) (fun _ => trivial)
  | loginUser u p =>
    by_cases h : u = uid
    · subst h
      exact (kept_loginUser L p).bind (fun r h _ => h r rfl) (fun _ _ => trivial) (fun _ => trivial) (fun _ => trivial)
    · exact (kept_keeps (allEff_loginUser keeps_rand keeps_now (keeps_get _ _) p) allOut_true).bind (fun r _ h' => absurd h' h)
        (fun _ _ => trivial) (fun _ => trivial) (fun _ => trivial)
  | changePassword u p =>
    by_cases h : u = uid
    · subst h
      exact (kept_changePassword L (hm rfl) p).bind (fun r h _ => h r rfl) (fun _ _ => trivial) (fun _ => trivial) (fun _ => trivial)
    · exact (kept_keeps (allEff_changeUserPassword keeps_rand (keeps_get _ _) (fun _ => keeps_put _ _ _) (fun _ => keeps_update h _) p)
        allOut_true).bind (fun r _ h' => absurd h' h) (fun _ _ => trivial) (fun _ => trivial) (fun _ => trivial)
  | newGroup t sc' => exact (kept_newGroup L hm sc').bind (fun r _ => trivial) (fun _ _ => trivial) (fun _ => trivial) (fun _ => trivial)
  | addUser t u gs =>
    by_cases h : u = uid
    · subst h
      exact (kept_addUser L t (hm rfl)).bind (fun r _ => trivial) (fun _ _ => trivial) (fun _ => trivial) (fun _ => trivial)
    · exact (kept_keeps (allEff_addUserToGroups keeps_rand keeps_now (fun _ => keeps_get _ _) (fun _ => keeps_get _ _) (fun _ => keeps_put _ _ _)
        (fun _ => keeps_update h _) t gs) allOut_true).bind (fun r _ => trivial) (fun _ _ => trivial) (fun _ => trivial) (fun _ => trivial)
  | removeUser t u gs =>
    by_cases h : u = uid
    · subst h
      exact (kept_removeUser L t (hm rfl)).bind (fun r _ => trivial) (fun _ _ => trivial) (fun _ => trivial) (fun _ => trivial)
    · exact (kept_keeps (allEff_removeUserFromGroups keeps_rand keeps_now (fun _ => keeps_get _ _) (fun _ => keeps_get _ _) (fun _ => keeps_put _ _ _)
        (fun _ => keeps_update h _) t gs) allOut_true).bind (fun r _ => trivial) (fun _ _ => trivial) (fun _ => trivial) (fun _ => trivial)
  | deleteUser t u =>
    refine (kept_keeps (allEff_deleteUser keeps_now (fun _ => keeps_get _ _) (fun _ => keeps_get _ _) (keeps_delete hm) _) allOut_true).bind
      (fun r _ => trivial) (fun _ _ => trivial) (fun _ => trivial) (fun _ => trivial)
  | getIdentity t =>
    refine (kept_getIdentity L t).bind (fun i h => ?_) (fun _ _ => trivial) (fun _ => trivial) (fun _ => trivial)
    intro hid
    obtain ⟨h1, h2⟩ := (h i rfl).2 hid
    refine ⟨h1, ?_⟩
    simpa only [Option.isSome_map, lookupGroup_isSome] using h2

end

/-- C70, what holds of it.  Any calls run concurrently, with any IO failures and crashes, and none of them deletes the user.  Then at the end
the user is there with its scopes; it is in all its groups from which no call removes it, and in no other groups than those, the ones that
calls add it to, and ones created with its token; its password record is the old one or one made for a drawn password.  And what the calls
saw of the user on the way is such a state. -/
theorem C70_kept_partial {P : Prims} (L : P.Laws) {s : Standalone} {env : Env} {uid : GoString} {u : DirUser} {w : World}
    (h : UserAt P s w.store uid u) (calls : List DirCall) (hd : ∀ t, .deleteUser t uid ∉ calls)
    (hclean : ∀ t gs, .addUser t uid gs ∈ calls → ∀ g ∈ gs, sanitize g = g) (sch : List Nat)
    {lo hi : GoString → Prop} {A : (GoString → Bool) → Prop}
    (hlo : ∀ x, lo x ↔ x ∈ u.groups ∧ ∀ t gs, .removeUser t uid gs ∈ calls → x ∉ gs)
    (hhi : ∀ x, hi x ↔ x ∈ u.groups ∨ (∃ t gs, .addUser t uid gs ∈ calls ∧ x ∈ gs) ∨
      ∃ t sc b, .newGroup t sc ∈ calls ∧ Names P s t uid ∧ x = newName b)
    (hA : ∀ acc, A acc ↔ acc = u.accepts ∨ ((∃ p, .changePassword uid p ∈ calls) ∧
      ∃ (b : BytesN passwordLength) (salt : BytesN saltLength), acc = acceptsWith P salt.1 (b64Enc true b.1))) :
    (∃ u', UserAt P s (sched env sch w (calls.map (dirProg P s))).1.store uid u' ∧ Fits u.scopes lo hi A u') ∧
      ∀ j out, (j, out) ∈ commits env sch w (calls.map (dirProg P s)) → ∀ c, calls[j]? = some c → DirAnswer uid u.scopes lo hi A c out := by
  have hs : Kept P s uid u.scopes lo hi A w.store := by
    refine ⟨u, h, rfl, ⟨fun x hx => ?_, fun x hx => ?_⟩, (hA _).mpr (.inl rfl)⟩
    · simpa using ((hlo x).mp hx).1
    · exact (hhi x).mpr (.inl (by simpa using hx))
  have hmild : ∀ c ∈ calls, Gentle P s uid lo hi A c := by
    intro c hc
    cases c with
    | addUser t u gs => rintro rfl g hg; exact ⟨(hhi g).mpr (.inr (.inl ⟨t, gs, hc, hg⟩)), hclean t gs hc g hg⟩
    | removeUser t u gs => rintro rfl g hg hl; exact ((hlo g).mp hl).2 t gs hc hg
    | deleteUser t u => rintro rfl; exact hd t hc
    | changePassword u p => rintro rfl b salt; exact (hA _).mpr (.inr ⟨⟨p, hc⟩, b, salt, rfl⟩)
    | newGroup t sc => intro hn b; exact (hhi _).mpr (.inr (.inr ⟨t, sc, b, hc, hn, rfl⟩))
    | _ => trivial
  obtain ⟨g1, g2, -⟩ := Safe.runs (I := Kept P s uid u.scopes lo hi A)
    (R := fun j out => ∀ c, calls[j]? = some c → DirAnswer uid u.scopes lo hi A c out)
    (sched_runs (fun w e => anyStep env w e) sch w (calls.map (dirProg P s))) hs fun j p hp => by
      rw [List.getElem?_map, Option.map_eq_some_iff] at hp
      obtain ⟨c, hc, rfl⟩ := hp
      refine (kept_dirCall L (hmild c (List.mem_of_getElem? hc))).mono fun out hout c' hc' => ?_
      rw [hc] at hc'
      cases hc'
      exact hout
  exact ⟨g1, g2⟩

/-! ## Calls that leave something behind when they succeed -/

section
variable {S α β : Type} {step : S → (e : Eff) → e.Resp → S → Prop} {Q : S → Prop} {R : Outcome α → Prop}

/-- When the program ends as `R` says, `Q` holds at that moment. -/
def Leaves (step : S → (e : Eff) → e.Resp → S → Prop) (Q : S → Prop) (R : Outcome α → Prop) : Prog α → Prop
  | .op e k => ∀ s r s', step s e r s' → (∀ o, (k r).outcome = some o → R o → Q s') ∧ Leaves step Q R (k r)
  | _ => True

theorem Leaves.bind {p : Prog β} {k : β → Prog α} (hk : ∀ a, (k a).outcome = none ∧ Leaves step Q R (k a)) (he : ∀ e, ¬ R (.err e))
    (hp : ¬ R .panic) (hd : ¬ R .diverge) : Leaves step Q R (p.bind k) := by
  induction p with
  | op e c ih =>
    intro s r s' _
    refine ⟨fun o ho hR => ?_, ih r⟩
    replace ho : ((c r).bind k).outcome = some o := ho
    cases hc : c r with
    | ret a =>
      rw [hc] at ho
      have : (k a).outcome = some o := ho
      rw [(hk a).1] at this
      cases this
    | err e =>
      rw [hc] at ho
      obtain rfl : Outcome.err e = o := by simpa [Prog.bind, Prog.outcome] using ho
      exact absurd hR (he e)
    | panic =>
      rw [hc] at ho
      obtain rfl : Outcome.panic = o := by simpa [Prog.bind, Prog.outcome] using ho
      exact absurd hR hp
    | diverge =>
      rw [hc] at ho
      obtain rfl : Outcome.diverge = o := by simpa [Prog.bind, Prog.outcome] using ho
      exact absurd hR hd
    | op e' c' => rw [hc] at ho; simp [Prog.bind, Prog.outcome] at ho
  | ret a => exact (hk a).2
  | _ => trivial

/-- The program keeps `Q`, whether it holds or not. -/
def Stable (step : S → (e : Eff) → e.Resp → S → Prop) (Q : S → Prop) : Prog α → Prop
  | .op e k => ∀ s r s', step s e r s' → (Q s → Q s') ∧ Stable step Q (k r)
  | _ => True

theorem Stable.bind {p : Prog β} {k : β → Prog α} (hp : Stable step Q p) (hk : ∀ a, Stable step Q (k a)) : Stable step Q (p.bind k) := by
  induction p with
  | op e c ih => exact fun s r s' h => ⟨(hp s r s' h).1, ih r (hp s r s' h).2⟩
  | ret a => exact hk a
  | _ => trivial

theorem stable_frame {E : Eff → Prop} (hq : ∀ e, E e → ∀ s r s', Q s → step s e r s' → Q s') {p : Prog α} (hp : AllEff E p) : Stable step Q p := by
  induction p with
  | op e k ih => exact fun s r s' h => ⟨fun h' => hq e hp.1 s r s' h' h, ih r (hp.2 r)⟩
  | _ => trivial

theorem Stable.runs {s s' : S} {ps ps' : List (Prog α)} {cs : List (Nat × Outcome α)} (hr : Runs step s ps cs s' ps')
    (hs : ∀ (j : Nat) p, ps[j]? = some p → Stable step Q p) (h : Q s) : Q s' := by
  induction hr with
  | done s ps => exact h
  | @goes s s1 s' ps ps' cs j e k r hj hst hn _ ih =>
    obtain ⟨h1, h2⟩ := hs j _ hj _ _ _ hst
    refine ih (fun j' p hp => ?_) (h1 h)
    by_cases hjj : j = j'
    · subst hjj
      rw [List.getElem?_set_self (List.getElem?_eq_some_iff.mp hj).1] at hp
      cases hp
      exact h2
    · rw [List.getElem?_set_ne hjj] at hp
      exact hs j' p hp
  | @ends s s1 s' ps ps' cs j e k r o hj hst hn _ ih =>
    obtain ⟨h1, h2⟩ := hs j _ hj _ _ _ hst
    refine ih (fun j' p hp => ?_) (h1 h)
    by_cases hjj : j = j'
    · subst hjj
      rw [List.getElem?_set_self (List.getElem?_eq_some_iff.mp hj).1] at hp
      cases hp
      exact h2
    · rw [List.getElem?_set_ne hjj] at hp
      exact hs j' p hp

/-- If all programs keep `Q`, and program `i` ended as `R` says, then `Q` holds at the end. -/
theorem Leaves.runs {s s' : S} {ps ps' : List (Prog α)} {cs : List (Nat × Outcome α)} (hr : Runs step s ps cs s' ps')
    (hs : ∀ (j : Nat) p, ps[j]? = some p → Stable step Q p) {i : Nat} (hl : ∀ p, ps[i]? = some p → Leaves step Q R p)
    {o : Outcome α} (ho : (i, o) ∈ cs) (hR : R o) : Q s' := by
  induction hr with
  | done s ps => cases ho
  | @goes s s1 s' ps ps' cs j e k r hj hst hn _ ih =>
    have hlt := (List.getElem?_eq_some_iff.mp hj).1
    refine ih (fun j' p hp => ?_) (fun p hp => ?_) ho
    · by_cases hjj : j = j'
      · subst hjj
        rw [List.getElem?_set_self hlt] at hp
        cases hp
        exact (hs j _ hj _ _ _ hst).2
      · rw [List.getElem?_set_ne hjj] at hp
        exact hs j' p hp
    · by_cases hjj : j = i
      · subst hjj
        rw [List.getElem?_set_self hlt] at hp
        cases hp
        exact (hl _ hj _ _ _ hst).2
      · rw [List.getElem?_set_ne hjj] at hp
        exact hl p hp
  | @ends s s1 s' ps ps' cs j e k r o' hj hst hn hrest ih =>
    have hlt := (List.getElem?_eq_some_iff.mp hj).1
    have hs' : ∀ (j' : Nat) p, (ps.set j (k r))[j']? = some p → Stable step Q p := fun j' p hp => by
      by_cases hjj : j = j'
      · subst hjj
        rw [List.getElem?_set_self hlt] at hp
        cases hp
        exact (hs j _ hj _ _ _ hst).2
      · rw [List.getElem?_set_ne hjj] at hp
        exact hs j' p hp
    rcases List.mem_cons.mp ho with ho | ho
    · cases ho
      exact Stable.runs hrest hs' ((hl _ hj _ _ _ hst).1 _ hn hR)
    · refine ih hs' (fun p hp => ?_) ho
      by_cases hjj : j = i
      · subst hjj
        rw [List.getElem?_set_self hlt] at hp
        cases hp
        exact (hl _ hj _ _ _ hst).2
      · rw [List.getElem?_set_ne hjj] at hp
        exact hl p hp

end

/-! ## Deleted users -/

section
variable {P : Prims} {s : Standalone} {uid : GoString}

/-- The drawn bytes do not make the name. -/
def NotDrawn (uid : GoString) : (e : Eff) → e.Resp → Prop
  | .rand n, r => ∀ (b : BytesN 16) x, r = some x → n = 16 → x.1 = b.1 → newName b ≠ uid
  | _, _ => True

def GoneStep (uid : GoString) (st : Store) (e : Eff) (r : e.Resp) (st' : Store) : Prop := AnyStep st e r st' ∧ NotDrawn uid e r

/-- There is no such user. -/
def Gone (uid : GoString) (st : Store) : Prop := st uid dtUser = none

theorem gone_step {e : Eff} (he : ∀ b, e ≠ .put uid dtUser b) {st st' : Store} {r : e.Resp} (h : Gone uid st) (hst : GoneStep uid st e r st') :
    Gone uid st' := by
  obtain ⟨⟨rnd, clk, hst⟩, -⟩ := hst
  have key : (st.exec rnd clk e).2 uid dtUser = none := by
    cases e with
    | put id dt b =>
      simp only [Store.exec]
      cases hs : st id dt with
      | some x => exact h
      | none =>
        refine (Store.set_other _ _ _ _ _ _ ?_).trans h
        rintro ⟨rfl, rfl⟩
        exact he b rfl
    | get id dt => simp only [Store.exec]; cases st id dt <;> exact h
    | update id dt b =>
      simp only [Store.exec]
      cases hs : st id dt with
      | none => exact h
      | some x =>
        refine (Store.set_other _ _ _ _ _ _ ?_).trans h
        rintro ⟨rfl, rfl⟩
        rw [Gone, hs] at h
        cases h
    | delete id dt =>
      simp only [Store.exec]
      by_cases hid : uid = id ∧ dtUser = dt
      · obtain ⟨rfl, rfl⟩ := hid; exact Store.set_same _ _ _ _
      · exact (Store.set_other _ _ _ _ _ _ hid).trans h
    | rand n => exact h
    | now => exact h
  rcases hst with hst | ⟨-, rfl | rfl⟩
  · rw [hst] at key; exact key
  · exact h
  · exact key

/-- Effects that do not create the user. -/
def NoPut (uid : GoString) (e : Eff) : Prop := ∀ b, e ≠ .put uid dtUser b

local notation "NP" => NoPut uid

theorem noPut_rand (n : Nat) : NP (.rand n) := by intro b h; cases h
theorem noPut_now : NP .now := by intro b h; cases h
theorem noPut_get (id : Bytes) (dt : DataType) : NP (.get id dt) := by intro b h; cases h
theorem noPut_update (id : Bytes) (dt : DataType) (b : Bytes) : NP (.update id dt b) := by intro b h; cases h
theorem noPut_delete (id : Bytes) (dt : DataType) : NP (.delete id dt) := by intro b h; cases h
theorem noPut_group (id b : Bytes) : NP (.put id dtGroup b) := by rintro b ⟨⟩
theorem noPut_other {id : Bytes} (hid : id ≠ uid) (b : Bytes) : NP (.put id dtUser b) := by rintro b ⟨⟩; exact hid rfl

theorem noPut_putUser (u' : GoString) (x : User) : AllEff NP (s.putUser P u' x true) := by
  rw [Standalone.putUser, User.seal, Prog.bind_eq, Prog.bind_eq, Prog.bind_assoc]
  exact AllEff.bind (allEff_encrypt noPut_rand _ _ _) fun r => allEff_ioUpdate (noPut_update _ _ _)

theorem noPut_getIdentity (t : GoString) : AllEff NP (s.getIdentity P t) :=
  allEff_getIdentity noPut_now (fun _ => noPut_get _ _) (fun _ => noPut_get _ _) t

theorem noPut_getUser (u : GoString) : AllEff NP (s.getUser P u) := allEff_getUser (noPut_get _ _)

theorem stable_noPut {α : Type} {p : Prog α} (h : AllEff NP p) : Stable (GoneStep uid) (Gone uid) p :=
  stable_frame (E := NP) (fun _ he _ _ _ h hst => gone_step he h hst) h

theorem gone_dirCall (c : DirCall) : Stable (GoneStep uid) (Gone uid) (dirProg P s c) := by
  cases c with
  | newUser sc =>
    refine Stable.bind ?_ fun _ => trivial
    rw [Standalone.newUser, newV4, randBytes, Prog.bind_eq, Prog.bind_eq, Prog.bind_assoc, op_bind]
    intro st r st' hst
    refine ⟨fun h => gone_step (noPut_rand _) h hst, ?_⟩
    cases r with
    | none => trivial
    | some b =>
      have hb : newName b ≠ uid := hst.2 b b rfl rfl rfl
      simp only [ret_bind, Prog.pure_eq]
      refine Stable.bind (stable_noPut (AllEff.bind (allEff_generatePassword noPut_rand) fun _ => ?_)) fun r => ?_
      · trivial
      refine stable_noPut (AllEff.bind ?_ fun _ => trivial)
      rw [Standalone.putUser, User.seal, Prog.bind_eq, Prog.bind_eq, Prog.bind_assoc]
      exact AllEff.bind (allEff_encrypt noPut_rand _ _ _) fun _ => allEff_ioPut (noPut_other hb _)
  | loginUser u p =>
    refine stable_noPut (AllEff.bind ?_ fun _ => trivial)
    exact allEff_loginUser noPut_rand noPut_now (noPut_get _ _) p
  | changePassword u p =>
    refine stable_noPut (AllEff.bind ?_ fun _ => trivial)
    exact AllEff.bind (AllEff.mapErr (noPut_getUser u)) fun _ =>
      AllEff.bind (AllEff.mapErr (AllEff.bind (allEff_authenticate _ _) fun _ => AllEff.bind (allEff_generatePassword noPut_rand) fun _ => trivial))
        fun _ => AllEff.bind (noPut_putUser _ _) fun _ => trivial
  | newGroup t sc =>
    refine stable_noPut (AllEff.bind ?_ fun _ => trivial)
    exact AllEff.bind (noPut_getIdentity t) fun _ => AllEff.bind (allEff_newV4 noPut_rand) fun _ =>
      AllEff.bind (allEff_putGroup noPut_rand fun _ => noPut_group _ _) fun _ => AllEff.bind (noPut_getUser _) fun _ =>
        AllEff.bind (allEff_ofPanic _) fun _ => AllEff.bind (noPut_putUser _ _) fun _ => trivial
  | addUser t u gs =>
    refine stable_noPut (AllEff.bind ?_ fun _ => trivial)
    exact AllEff.bind (noPut_getIdentity t) fun _ => AllEff.bind (allEff_checkMembership _ _) fun _ =>
      AllEff.bind (noPut_getUser _) fun _ => AllEff.bind (allEff_ofPanic _) fun _ => noPut_putUser _ _
  | removeUser t u gs =>
    refine stable_noPut (AllEff.bind ?_ fun _ => trivial)
    exact AllEff.bind (noPut_getIdentity t) fun _ => AllEff.bind (allEff_checkMembership _ _) fun _ =>
      AllEff.bind (noPut_getUser _) fun _ => noPut_putUser _ _
  | deleteUser t u =>
    exact stable_noPut (AllEff.bind (allEff_deleteUser noPut_now (fun _ => noPut_get _ _) (fun _ => noPut_get _ _) (noPut_delete _ _) t) fun _ => trivial)
  | getIdentity t => exact stable_noPut (AllEff.bind (noPut_getIdentity t) fun _ => trivial)

end

/-- C70, what holds of `DeleteUser`: any calls run concurrently, with any IO failures and crashes.  If a `DeleteUser` reports success, or the
user did not exist, then at the end the user does not exist, unless `NewUser` draws the same name.  Calls that read the user before it was
deleted do not bring it back. -/
theorem C70_deleted_partial {P : Prims} {s : Standalone} {env : Env} {uid : GoString} (hn : ∀ t b, env.rand t 16 = some b → newName b ≠ uid)
    (calls : List DirCall) (sch : List Nat) (w : World)
    (h : w.store uid dtUser = none ∨
      ∃ i t r, calls[i]? = some (.deleteUser t uid) ∧ (i, .ok r) ∈ commits env sch w (calls.map (dirProg P s))) :
    (sched env sch w (calls.map (dirProg P s))).1.store uid dtUser = none := by
  have hruns := sched_runs (step := GoneStep uid) (env := env) (fun w e => ⟨anyStep env w e, by
    cases e with
    | rand n =>
      rintro b x hx rfl hxb
      have hx : env.rand w.t 16 = some x := by
        rw [← hx, exec_rand]
      rw [← Subtype.ext hxb]
      exact hn _ _ hx
    | _ => trivial⟩) sch w (calls.map (dirProg P s))
  have hst : ∀ (j : Nat) p, (calls.map (dirProg P s))[j]? = some p → Stable (GoneStep uid) (Gone uid) p := by
    intro j p hp
    rw [List.getElem?_map, Option.map_eq_some_iff] at hp
    obtain ⟨c, -, rfl⟩ := hp
    exact gone_dirCall c
  rcases h with h | ⟨i, t, r, hi, hc⟩
  · exact Stable.runs (Q := Gone uid) hruns hst h
  · refine Leaves.runs (Q := Gone uid) (R := fun o => ∃ r, o = .ok r) hruns hst (fun p hp => ?_) hc ⟨r, rfl⟩
    rw [List.getElem?_map, hi] at hp
    cases hp
    show Leaves _ _ _ ((s.deleteUser P t uid).bind fun _ => .ret DirRes.unit)
    rw [Standalone.deleteUser, Prog.bind_eq, Prog.bind_assoc]
    refine Leaves.bind (fun a => ⟨rfl, ?_⟩) (by rintro e ⟨r, h⟩; cases h) (by rintro ⟨r, h⟩; cases h) (by rintro ⟨r, h⟩; cases h)
    rw [ioDelete, op_bind]
    intro st r st' hstep
    refine ⟨?_, by cases r <;> trivial⟩
    rintro o ho ⟨r', rfl⟩
    obtain ⟨⟨rnd, clk, h | ⟨h, -⟩⟩, -⟩ := hstep
    · cases h
      exact Store.set_same _ _ _ _
    · subst h
      simp [Eff.fail, Prog.outcome] at ho

/-! ## Computed cases -/

def toySaltAndHash (pwd : GoString) : Bytes := List.replicate saltLength 3 ++ toyPrims.pbkdf2 pwd (List.replicate saltLength 3)

/-- Users `[7]` and `[8]`, both in group `[20]`, with password `[112]`. -/
def toyDir : World := ⟨fun id dt =>
  if (id = [7] ∨ id = [8]) ∧ dt = dtUser then
    some (sealedUser toyPrims toyStandalone id ⟨some (toySaltAndHash [112]), scopeAll, some [[20]]⟩ ⟨List.replicate 32 9, rfl⟩ ⟨List.replicate 12 9, rfl⟩).toJ.render
  else if id = [20] ∧ dt = dtGroup then
    some (sealedGroup toyPrims toyStandalone id ⟨scopeAll⟩ ⟨List.replicate 32 9, rfl⟩ ⟨List.replicate 12 9, rfl⟩).toJ.render
  else none, 0⟩

/-- A token for a user. -/
def toyToken (uid : GoString) : GoString :=
  (sealedTok toyPrims toyStandalone.tokenCryptor (some uid) ⟨1000, 0⟩ ⟨List.replicate 32 1, rfl⟩ ⟨List.replicate 12 1, rfl⟩).string toyPrims

def dirReports (sch : List Nat) (calls : List DirCall) : List (Nat × Bool) :=
  (commits toyEnv sch toyDir (calls.map (dirProg toyPrims toyStandalone))).map fun p => (p.1, succeeded p.2)

def dirLeaves (sch : List Nat) (calls : List DirCall) : World := (sched toyEnv sch toyDir (calls.map (dirProg toyPrims toyStandalone))).1

/-- The groups `GetIdentity` reports. -/
def groupsOf (w : World) (uid : GoString) : Outcome (List GoString) :=
  (((toyStandalone.getIdentity toyPrims (toyToken uid)).bind fun i => .ret (i.groups.map Prod.fst)).run toyEnv w).1

/-- Whether `LoginUser` succeeds. -/
def canLogin (w : World) (uid pwd : GoString) : Bool := succeeded ((toyStandalone.loginUser toyPrims uid pwd).run toyEnv w).1

/-- C70, refutation: a `ChangeUserPassword` runs around a `RemoveUserFromGroups`.  Both report success, and the user is still in the group. -/
theorem C70_revoked_member_returns : ∃ sch,
    dirReports sch [.removeUser (toyToken [7]) [8] [[20]], .changePassword [8] [112]] = [(0, true), (1, true)] ∧
    groupsOf (dirLeaves sch [.removeUser (toyToken [7]) [8] [[20]], .changePassword [8] [112]]) [8] = .ok [[20]] :=
  ⟨[1] ++ List.replicate 7 0 ++ List.replicate 5 1, by decide +kernel, by decide +kernel⟩

/-- What `ChangeUserPassword` returned as call 0. -/
def newPassword (sch : List Nat) (calls : List DirCall) : Option GoString :=
  (commits toyEnv sch toyDir (calls.map (dirProg toyPrims toyStandalone))).findSome? fun p => match p with
    | (0, .ok (.password q)) => some q
    | _ => none

/-- C70, refutation: an `AddUserToGroups` runs around a `ChangeUserPassword`.  Both report success; afterwards the new password is refused and
the old one is accepted. -/
theorem C70_password_change_lost : ∃ sch q,
    dirReports sch [.changePassword [8] [112], .addUser (toyToken [7]) [8] [[20]]] = [(0, true), (1, true)] ∧
    newPassword sch [.changePassword [8] [112], .addUser (toyToken [7]) [8] [[20]]] = some q ∧
    canLogin (dirLeaves sch [.changePassword [8] [112], .addUser (toyToken [7]) [8] [[20]]]) [8] q = false ∧
    canLogin (dirLeaves sch [.changePassword [8] [112], .addUser (toyToken [7]) [8] [[20]]]) [8] [112] = true :=
  ⟨List.replicate 4 1 ++ List.replicate 6 0 ++ List.replicate 3 1, b64Enc true (List.replicate passwordLength 5), by decide +kernel, by decide +kernel,
    by decide +kernel, by decide +kernel⟩

theorem toyDir_user {uid : GoString} (h : uid = [7] ∨ uid = [8]) : UserAt toyPrims toyStandalone toyDir.store uid
    ⟨fun p => decide (toyPrims.pbkdf2 p (List.replicate saltLength 3) = toyPrims.pbkdf2 [112] (List.replicate saltLength 3)), scopeAll, [[20]]⟩ := by
  refine ⟨toySaltAndHash [112], ⟨List.replicate 32 9, rfl⟩, ⟨List.replicate 12 9, rfl⟩, ?_, fun p => ?_, ?_, by simp, ?_⟩
  · show (if (uid = [7] ∨ uid = [8]) ∧ dtUser = dtUser then _ else _) = _
    rw [if_pos ⟨h, rfl⟩]
  · rw [comparePassword, if_neg (by simp [toySaltAndHash])]
    simp only [toySaltAndHash, List.take_left' (List.length_replicate ..), List.drop_left' (List.length_replicate ..)]
  · rcases h with rfl | rfl <;> decide
  · simp only [List.mem_singleton]; rintro g rfl; decide

/-- Non-vacuity of `C70_kept_partial`: a user's password is changed while another member removes it from a group, and the name of its token is
asked for in between. -/
example : (∃ u, UserAt toyPrims toyStandalone toyDir.store [8] u) ∧
    dirReports ([1] ++ List.replicate 3 0 ++ List.replicate 3 2 ++ List.replicate 4 0 ++ List.replicate 5 1)
      [.removeUser (toyToken [7]) [8] [[20]], .changePassword [8] [112], .getIdentity (toyToken [8])] = [(2, true), (0, true), (1, true)] :=
  ⟨⟨_, toyDir_user (.inr rfl)⟩, by decide +kernel⟩

/-- Non-vacuity of `C70_deleted_partial`: a user is deleted while its password is being changed; the change fails. -/
example : dirReports ([1, 1] ++ List.replicate 4 0 ++ List.replicate 4 1) [.deleteUser (toyToken [7]) [8], .changePassword [8] [112]] =
    [(0, true), (1, false)] := by decide +kernel

/-! A computed case of `C71_linearizable`: two users change their passwords and a third call lists the first one's groups, all overlapping. -/

def toyDirectory : Dir :=
  ⟨fun uid => if uid = [7] ∨ uid = [8] then some ⟨fun p => decide (toyPrims.pbkdf2 p (List.replicate saltLength 3) =
      toyPrims.pbkdf2 [112] (List.replicate saltLength 3)), scopeAll, [[20]]⟩ else none,
    fun gid => if gid = [20] then some scopeAll else none⟩

theorem toyDir_rel : DirRel toyPrims toyStandalone toyDir.store toyDirectory := by
  refine ⟨fun uid => ?_, fun gid => ?_⟩
  · by_cases h : uid = [7] ∨ uid = [8]
    · simp only [toyDirectory, if_pos h]
      exact toyDir_user h
    · simp only [toyDirectory, if_neg h, UserRel, toyDir]
      rw [if_neg (fun h' => h h'.1), if_neg (by rintro ⟨-, h'⟩; exact absurd h' (by decide))]
  · by_cases h : gid = [20]
    · subst h
      simp only [toyDirectory, if_true]
      refine ⟨⟨List.replicate 32 9, rfl⟩, ⟨List.replicate 12 9, rfl⟩, ?_, by decide⟩
      simp only [toyDir]
      rw [if_neg (by decide), if_pos (by decide)]
    · simp only [toyDirectory, if_neg h, GroupRel, toyDir]
      rw [if_neg (by rintro ⟨-, h'⟩; exact absurd h' (by decide)), if_neg (fun h' => h h'.1)]

def toyDirCalls : List DirCall := [.changePassword [7] [112], .changePassword [8] [112], .getIdentity (toyToken [7]), .newUser [],
  .loginUser [7] [112], .removeUser (toyToken [7]) [8] [[20]]]

def toyDirSch : List Nat := [0, 1, 2, 3, 4, 0, 1, 2, 3, 4, 0, 1, 2, 3, 4, 0, 1, 3, 4, 0, 1, 3, 0, 1, 3] ++ List.replicate 7 5

theorem toyDir_fresh : FreshNames toyEnv toyDirectory toyDir.t (toyDir.t + toyDirSch.length) := by
  have hlen : ∀ b, (newName b).length = 36 := fun b => uuidText_length _
  rintro t b h1 h2 ⟨⟩
  refine ⟨?_, ?_, fun uid u hu => ?_, ?_⟩
  · simp only [toyDirectory]
    rw [if_neg]
    rintro (h | h) <;> have := hlen (b := ⟨List.replicate 16 (UInt8.ofNat t), by simp⟩) <;> rw [h] at this <;> cases this
  · simp only [toyDirectory]
    rw [if_neg]
    intro h
    have := hlen (b := ⟨List.replicate 16 (UInt8.ofNat t), by simp⟩)
    rw [h] at this
    cases this
  · simp only [toyDirectory] at hu
    split at hu
    · cases hu
      intro h
      have := hlen (b := ⟨List.replicate 16 (UInt8.ofNat t), by simp⟩)
      rw [List.mem_singleton.mp h] at this
      cases this
    · cases hu
  · rintro t' b' h3 h4 ⟨⟩
    have key : ∀ t' : Fin 32, ∀ t < t', newName ⟨List.replicate 16 (UInt8.ofNat t.1), by simp⟩ ≠ newName ⟨List.replicate 16 (UInt8.ofNat t'.1), by simp⟩ := by
      decide +kernel
    have ht' : t' < 32 := h4
    exact key ⟨t', ht'⟩ ⟨t, Nat.lt_trans h3 ht'⟩ h3

/-- Non-vacuity of `C71_linearizable`. -/
example : NoFault toyEnv ∧ RandOk toyEnv ∧ DirRel toyPrims toyStandalone toyDir.store toyDirectory ∧
    FreshNames toyEnv toyDirectory toyDir.t (toyDir.t + toyDirSch.length) ∧
    (∀ n, n < toyDirSch.length → ∀ i j a b, i ≠ j → toyDirCalls[i]? = some a → toyDirCalls[j]? = some b →
      InProgress toyEnv toyDirSch toyDir (toyDirCalls.map (dirProg toyPrims toyStandalone)) n i →
      InProgress toyEnv toyDirSch toyDir (toyDirCalls.map (dirProg toyPrims toyStandalone)) n j → ¬ DirConflict toyPrims toyStandalone a b) ∧
    DirConflict toyPrims toyStandalone (.changePassword [8] [112]) (.removeUser (toyToken [7]) [8] [[20]]) ∧
    dirReports toyDirSch toyDirCalls = [(2, true), (4, true), (0, true), (1, true), (3, true), (5, true)] := by
  refine ⟨toyEnv_noFault, toyEnv_randOk, toyDir_rel, toyDir_fresh, ?_, ⟨[8], .inl ⟨rfl, .inl rfl⟩⟩, by decide +kernel⟩
  have key : ∀ i : Fin 5, ∀ n < 32, ¬ (InProgress toyEnv toyDirSch toyDir (toyDirCalls.map (dirProg toyPrims toyStandalone)) n i ∧
      InProgress toyEnv toyDirSch toyDir (toyDirCalls.map (dirProg toyPrims toyStandalone)) n 5) := by decide +kernel
  intro n hn i j a b hij ha hb h1 h2
  have hi : i < 6 := (List.getElem?_eq_some_iff.mp ha).1
  have hj : j < 6 := (List.getElem?_eq_some_iff.mp hb).1
  by_cases hi5 : i = 5
  · subst hi5
    exact absurd ⟨h2, h1⟩ (key ⟨j, by omega⟩ n hn)
  by_cases hj5 : j = 5
  · subst hj5
    exact absurd ⟨h1, h2⟩ (key ⟨i, by omega⟩ n hn)
  have hi' : i = 0 ∨ i = 1 ∨ i = 2 ∨ i = 3 ∨ i = 4 := by omega
  have hj' : j = 0 ∨ j = 1 ∨ j = 2 ∨ j = 3 ∨ j = 4 := by omega
  rintro ⟨uid, h⟩
  rcases hi' with rfl | rfl | rfl | rfl | rfl <;> rcases hj' with rfl | rfl | rfl | rfl | rfl <;> cases ha <;> cases hb <;>
    simp [DirWrites, DirUses] at h hij
  all_goals (obtain ⟨rfl, h⟩ := h; cases h)

end D1
