import Verif.Proofs.Trial
import Verif.Proofs.D1Run
import Verif.Props.Confidential
/-!
# C98, C99, C100: contents of objects, rights and contents of tokens are authentic

Authenticity as a game (`Spec/Trial.lean`).  The adversary is the IO Provider and the clock, decides which calls are made and
in which order their steps are taken, and sees what they answer.  It knows all keys but one (the library instance is arbitrary
but for that key).  It wins as soon as a call returns contents that nobody stored, or acts on a right that nobody granted.
-/
namespace D1
open Spec Prog

/-! ## C98: specification -/

/-- Contents of an object: its ID, its plaintext and its associated data. -/
abbrev Contents : Type := Oid × NBytes × Bytes

/-- `Encrypt` and `Update` bring about the contents that they are called with, as soon as they send an object to the IO Provider, under
the ID with which they send it.  `Decrypt` should return only such contents. -/
def objectTerms : Terms Call Res Contents where
  brings
    | .encrypt _ o _, f, H => f.2 = (o.plaintext, o.associatedData.bytes) ∧ ∃ d, H (.inr (.put f.1.1 dtObject d))
    | .update _ oid o, f, H => f = (oid, o.plaintext, o.associatedData.bytes) ∧ ∃ d, H (.inr (.update oid.1 dtObject d))
    | _, _, _ => False
  needs
    | .decrypt _ oid, .inl (.object o), D => D = (· = (oid, o.plaintext, o.associatedData.bytes))
    | _, _, _ => False

/-! ## C98: proof -/

/-- A call with sealing and opening of the object left open. -/
def objectI (P : Prims) (d : D1) : Call → IProg Res
  | .encrypt t o gs =>
    .after (d.verifyAccess t scopeEncrypt) fun i => .after newV4 fun oid =>
      .box (.ofBytes o.plaintext) (objectAad oid o.associatedData).render fun r =>
        .after ((Prog.ofPanic ((newAccess r.1).addGroups (gs ++ [i.id]))).bind fun access =>
          (access.seal P oid d.accessCryptor).bind fun sa =>
            (putSealedObject ⟨some r.2, o.associatedData, oid⟩ false).bind fun _ =>
              putSealedAccess sa false) fun _ => .ret (.oid oid)
  | .update t oid o =>
    .after (guardProg P d t scopeUpdate oid) fun a =>
      .box (.ofBytes o.plaintext) (objectAad oid o.associatedData).render fun r =>
        .after (((⟨a.groups, some r.1⟩ : Access).seal P oid d.accessCryptor).bind fun sa =>
          (putSealedObject ⟨some r.2, o.associatedData, oid⟩ true).bind fun _ =>
            putSealedAccess sa true) fun _ => .ret .unit
  | .decrypt t oid =>
    .after (guardProg P d t scopeDecrypt oid) fun a => .after (getSealedObject P oid) fun so =>
      .read J.toBytes (objectAad oid so.associatedData).render a.wrappedDEK.bytes so.ciphertext.bytes fun p =>
        .ret (.object ⟨p, so.associatedData⟩)
  | c => .lift (callProg P d c)

/-- The contents that a box stands for. -/
def contentsOf (aad : Bytes) (m : J) (f : Contents) : Prop :=
  aad = (objectAad f.1 (some f.2.2)).render ∧ m.san.toBytes = some f.2.1

theorem objectAad_some (oid : Oid) (ad : NBytes) : objectAad oid (some ad.bytes) = objectAad oid ad := by cases ad <;> rfl

theorem contentsOf_inj {P : Prims} (L : P.Laws) {oid : Oid} {ad p : NBytes} {f : Contents}
    (h : contentsOf (objectAad oid ad).render (.ofBytes p) f) : f = (oid, p, ad.bytes) := by
  obtain ⟨i, q, b⟩ := f
  obtain ⟨h1, h2⟩ := h
  obtain ⟨rfl, h3⟩ := objectAad_inj L h1
  rw [san_ofBytes, toBytes_ofBytes, Option.some.injEq] at h2
  rw [h2, h3]
  rfl

theorem getSealedObject_oid (P : Prims) (oid : Oid) {β : Type} (f : SealedObject → Prog β) :
    (getSealedObject P oid).bind f = (getSealedObject P oid).bind fun so => f { so with oid := oid } := by
  simp only [getSealedObject, Prog.bind_eq, Prog.pure_eq, Prog.bind_assoc]
  congr 1; funext b
  cases (P.unmarshal b).bind (SealedObject.ofJ P) <;> rfl

theorem expand_objectI {P : Prims} (L : P.Laws) (d : D1) (kek : BytesN 32) (c : Call) :
    (objectI P d c).expand P kek = callProg P (d.withKek kek) c := by
  cases c with
  | encrypt t o gs =>
    simp only [objectI, IProg.expand_after, IProg.expand, callProg, D1.encrypt, Object.seal, Cryptor.encrypt_eq L,
      Prog.bind_eq, Prog.pure_eq, Prog.bind_assoc, Prog.ret_bind]
    rfl
  | update t oid o =>
    simp only [objectI, IProg.expand_after, IProg.expand, callProg, update_eq, Object.seal, Cryptor.encrypt_eq L,
      Prog.bind_eq, Prog.pure_eq, Prog.bind_assoc, Prog.ret_bind]
    rfl
  | decrypt t oid =>
    simp only [objectI, IProg.expand_after, IProg.expand_read, IProg.expand, callProg, decrypt_eq, Prog.bind_assoc]
    congr 1; funext a
    conv_rhs => rw [getSealedObject_oid]
    congr 1; funext so
    rw [SealedObject.unseal]
    simp only [D1.withKek]
    cases (⟨kek.1⟩ : Cryptor).decrypt P J.toBytes (objectAad oid so.associatedData) a.wrappedDEK.bytes so.ciphertext.bytes <;> rfl
  | _ => exact IProg.expand_lift P kek _

theorem draws_seal {P : Prims} (L : P.Laws) (a : Access) (oid : Oid) (c : Cryptor) : (a.seal P oid c).Draws := by
  simp only [Access.seal, Cryptor.encrypt_eq L, Prog.bind_eq, Prog.pure_eq, randBytes, Prog.bind]
  exact fun _ _ => trivial

theorem addGroups_new (w : Bytes) (gs : List GoString) : ∃ a, (newAccess w).addGroups gs = some a :=
  ⟨_, by rw [Access.addGroups]; simp only [newAccess, addToSet_some]; rfl⟩

theorem keeps_objectI {P : Prims} (L : P.Laws) (d : D1) (c : Call) :
    (objectI P d c).Keeps contentsOf objectTerms c (fun _ => False) fun _ => False := by
  cases c with
  | encrypt t o gs =>
    have hs : ∀ {β : Type} (p : Prog β), p.Sends fun e => objectTerms.Met (.encrypt t o gs) (.inr e) fun _ => False :=
      fun p => Prog.sends_all (fun e D hD => nomatch hD) p
    refine IProg.keeps_after _ (hs _) nofun fun i H hH _ => IProg.keeps_after _ (hs _) hH fun oid H hH _ => fun r => ⟨fun f hf => .inr ?_, ?_⟩
    · rw [contentsOf_inj L hf]
      obtain ⟨a, ha⟩ := addGroups_new r.1 (gs ++ [i.id])
      dsimp only
      rw [ha]
      simp only [Prog.ofPanic, Prog.ret_bind]
      rw [IProg.after_bind]
      exact IProg.soon_draws (draws_seal L a oid _) fun sa => IProg.soon_sent nofun fun H' _ h => ⟨rfl, _, h⟩
    · exact IProg.keeps_after _ (hs _) hH fun _ _ _ _ => fun D hD => nomatch hD
  | update t oid o =>
    have hs : ∀ {β : Type} (p : Prog β), p.Sends fun e => objectTerms.Met (.update t oid o) (.inr e) fun _ => False :=
      fun p => Prog.sends_all (fun e D hD => nomatch hD) p
    refine IProg.keeps_after _ (hs _) nofun fun a H hH _ => fun r => ⟨fun f hf => .inr ?_, ?_⟩
    · rw [contentsOf_inj L hf]
      dsimp only
      rw [IProg.after_bind]
      exact IProg.soon_draws (draws_seal L _ oid _) fun sa => IProg.soon_sent nofun fun H' _ h => ⟨rfl, _, h⟩
    · exact IProg.keeps_after _ (hs _) hH fun _ _ _ _ => fun D hD => nomatch hD
  | decrypt t oid =>
    have hs : ∀ {β : Type} (p : Prog β), p.Sends fun e => objectTerms.Met (.decrypt t oid) (.inr e) fun _ => False :=
      fun p => Prog.sends_all (fun e D hD => nomatch hD) p
    refine IProg.keeps_after _ (hs _) nofun fun a H hH _ => IProg.keeps_after _ (hs _) hH fun so H hH _ => IProg.keeps_read fun m p hp => ?_
    rintro D hD
    simp only [objectTerms, Option.some.injEq] at hD
    subst hD
    exact ⟨_, rfl, .inr ⟨by rw [objectAad_some], hp⟩⟩
  | _ => exact IProg.keeps_after _ (Prog.sends_all (fun e D hD => nomatch hD) _) nofun fun r _ _ _ => fun D hD => nomatch hD

/-- C98: whoever has contents returned that were not stored tells wrapped keys from other keys, or forges AES-GCM
ciphertexts. -/
theorem C98_objects {P : Prims} (L : P.Laws) (d : D1) (A : Spy Call Res) (n : Nat) :
    chance (trialGame (fun kek => callProg P (d.withKek kek)) objectTerms A n) ≤
      wrapGap P (unwrapAttack P (objectI P d) objectTerms A n) + forgeGap P (forgeAttack P (objectI P d) objectTerms A n) := by
  have h := trial_chance L (keeps_objectI L d) A n
  simp only [expand_objectI L] at h
  exact h

theorem bursts_objectI (P : Prims) (d : D1) (c : Call) : (objectI P d c).Bursts 1 1 := by
  have h1 := Nat.le_refl 1
  cases c with
  | encrypt t o gs =>
    exact IProg.bursts_after h1 _ fun i => IProg.bursts_after h1 _ fun oid => fun r => IProg.bursts_after (Nat.zero_le 1) _ fun _ => trivial
  | update t oid o => exact IProg.bursts_after h1 _ fun a => fun r => IProg.bursts_after (Nat.zero_le 1) _ fun _ => trivial
  | decrypt t oid =>
    exact IProg.bursts_after h1 _ fun a => IProg.bursts_after h1 _ fun so => IProg.bursts_read fun p => trivial
  | _ => exact IProg.bursts_lift h1 _

/-- C98: the attacks ask no more often than the adversary moves. -/
theorem C98_questions (P : Prims) (d : D1) (A : Spy Call Res) (n : Nat) :
    (unwrapAttack P (objectI P d) objectTerms A n).Asks n ∧ (forgeAttack P (objectI P d) objectTerms A n).Asks n := by
  have h1 := bursts_unwrapAttack P objectTerms (bursts_objectI P d) A n
  have h2 := bursts_forgeAttack P objectTerms (bursts_objectI P d) A n
  rw [Nat.one_mul] at h1 h2
  exact ⟨h1, h2⟩

/-! ## C99: specification -/

/-- A call, and what the Identity Provider answers to it. -/
abbrev AsWhom : Type := Except Err Identity × Call

/-- The library with a given access key, and a given answer of the Identity Provider. -/
def D1.withAek (d : D1) (aek : BytesN 32) (who : Except Err Identity) : D1 :=
  { d with accessCryptor := ⟨aek.1⟩, idProvider := fun _ => Prog.ofExcept who }

/-- A right: the group has access to the object. -/
abbrev Right : Type := Oid × GoString

/-- The identity acts as the group or user `g` with the scope. -/
def actsAs (who : Except Err Identity) (scope : Scope) (g : GoString) : Prop :=
  ∃ i, who = .ok i ∧ g ∈ i.getIDs ∧ (i.getIDScope g).contains scope = true

/-- One of the IDs with which the caller has the scope has access to the object. -/
def needsRight (who : Except Err Identity) (scope : Scope) (oid : Oid) (f : Right) : Prop := f.1 = oid ∧ actsAs who scope f.2

/-- Requests that change what is stored. -/
def changing : Eff → Bool
  | .put _ _ _ => true
  | .update _ _ _ => true
  | .delete _ _ => true
  | _ => false

/-- What a call on an object needs to succeed or to change what is stored. -/
def needsFor (D : Right → Prop) : Res ⊕ Eff → (Right → Prop) → Prop
  | .inl _, E => E = D
  | .inr e, E => changing e = true ∧ E = D

/-- `Encrypt` gives access to the groups it is called with and to the caller, as soon as it sends something to be stored, under the ID
with which it sends it; `AddGroupsToAccess` to the groups it is called with, as soon as it sends an access record.  (What is stored of a group ID is its sanitized text, C18.)  Calls on
objects should succeed, and change what is stored, only if the caller was given access.  `Delete` succeeds also if there is
no access record. -/
def accessTerms : Terms AsWhom Res Right where
  brings
    | (who, .encrypt _ _ gs), f, H => (∃ i g, who = .ok i ∧ (g ∈ gs ∨ g = i.id) ∧ f.2 = sanitize g) ∧ ∃ dt d, H (.inr (.put f.1.1 dt d))
    | (_, .addGroups _ oid gs), f, H => (f.1 = oid ∧ ∃ g ∈ gs, f.2 = sanitize g) ∧ ∃ d, H (.inr (.update oid.1 dtAccess d))
    | _, _, _ => False
  needs
    | (_, .encrypt _ _ _), _, _ => False
    | (who, .update _ oid _), s, D => needsFor (needsRight who scopeUpdate oid) s D
    | (who, .decrypt _ oid), s, D => needsFor (needsRight who scopeDecrypt oid) s D
    | (who, .delete _ oid), .inr e, D => needsFor (needsRight who scopeDelete oid) (.inr e) D
    | (_, .delete _ _), .inl _, _ => False
    | (who, .getGroups _ oid), s, D => needsFor (needsRight who scopeGetAccessGroups oid) s D
    | (who, .addGroups _ oid _), s, D => needsFor (needsRight who scopeModifyAccessGroups oid) s D
    | (who, .removeGroups _ oid _), s, D => needsFor (needsRight who scopeModifyAccessGroups oid) s D
    | (who, .authorize _ oid), s, D => needsFor (needsRight who scopeGetAccessGroups oid) s D

/-! ## C99: proof -/

/-- What a record of rights is tied to. -/
def accessAad (oid : Oid) : Bytes := (J.ofBytes (some oid.1)).render

/-- Opening rights, and going on if the identity has them. -/
def checkI (i : Identity) (scope : Scope) (oid : Oid) (sa : SealedAccess) (k : Access → IProg Res) : IProg Res :=
  .read Access.ofJ (accessAad oid) sa.wrappedKey.bytes sa.ciphertext.bytes fun a =>
    if i.getIDs.any (fun gid => a.containsGroups [gid] && (i.getIDScope gid).contains scope)
    then k a else .err .notAuthorized

/-- What `verifyAccess` does. -/
def knowI (who : Except Err Identity) (scope : Scope) (k : Identity → IProg Res) : IProg Res :=
  match who with
  | .error _ => .err .notAuthenticated
  | .ok i => if !i.scopes.contains scope then .err .notAuthorized else k i

/-- The start of a call on an object, with opening of the rights left open. -/
def guardI (P : Prims) (who : Except Err Identity) (scope : Scope) (oid : Oid) (k : Access → IProg Res) : IProg Res :=
  knowI who scope fun i => .after (getSealedAccess P oid) fun sa => checkI i scope oid sa k

/-- Sealing rights. -/
def sealI (a : Access) (oid : Oid) (k : SealedAccess → IProg Res) : IProg Res :=
  .box a.toJ (accessAad oid) fun r => k ⟨oid, some r.2, some r.1⟩

/-- Looking for an access record, without failing if there is none. -/
def lookForAccess (P : Prims) (oid : Oid) : Prog (Option SealedAccess) :=
  (getSealedAccess P oid).attempt fun r => match r with
    | .error .accessNotFound => .ret none
    | .error e => .err e
    | .ok a => .ret (some a)

/-- A call with sealing and opening of rights left open. -/
def accessI (P : Prims) (d : D1) : AsWhom → IProg Res
  | (who, .encrypt _ o gs) => knowI who scopeEncrypt fun i =>
    .after (newV4.bind fun oid => (o.seal P oid d.objectCryptor).bind fun r => .ret (oid, r)) fun x =>
      .after (Prog.ofPanic ((newAccess x.2.1).addGroups (gs ++ [i.id]))) fun a => sealI a x.1 fun sa =>
        .after ((putSealedObject x.2.2 false).bind fun _ => putSealedAccess sa false) fun _ => .ret (.oid x.1)
  | (who, .update _ oid o) => guardI P who scopeUpdate oid fun a =>
    .after (o.seal P oid d.objectCryptor) fun r => sealI ⟨a.groups, some r.1⟩ oid fun sa =>
      .after ((putSealedObject r.2 true).bind fun _ => putSealedAccess sa true) fun _ => .ret .unit
  | (who, .decrypt _ oid) => guardI P who scopeDecrypt oid fun a =>
    .lift ((getSealedObject P oid).bind fun so =>
      (Prog.ofExcept (so.unseal P a.wrappedDEK d.objectCryptor)).bind fun o => .ret (.object o))
  | (who, .getGroups _ oid) => guardI P who scopeGetAccessGroups oid fun a => .ret (.groups a.groups.has)
  | (who, .addGroups _ oid gs) => guardI P who scopeModifyAccessGroups oid fun a =>
    .after (Prog.ofPanic (a.addGroups gs)) fun a => sealI a oid fun sa => .after (putSealedAccess sa true) fun _ => .ret .unit
  | (who, .removeGroups _ oid gs) => guardI P who scopeModifyAccessGroups oid fun a =>
    sealI (a.removeGroups gs) oid fun sa => .after (putSealedAccess sa true) fun _ => .ret .unit
  | (who, .authorize _ oid) => guardI P who scopeGetAccessGroups oid fun _ => .ret .unit
  | (who, .delete _ oid) => knowI who scopeDelete fun i => .after (lookForAccess P oid) fun r => match r with
    | none => .ret .unit
    | some sa => checkI i scopeDelete oid sa fun _ =>
      .after ((deleteSealedObject oid).bind fun _ => deleteSealedAccess oid) fun _ => .ret .unit

section
variable {P : Prims}

theorem expand_knowI (d : D1) (aek : BytesN 32) (who : Except Err Identity) (t : GoString) (scope : Scope) (k : Identity → IProg Res) :
    (knowI who scope k).expand P aek = ((d.withAek aek who).verifyAccess t scope).bind fun i => (k i).expand P aek := by
  cases who with
  | error e => rfl
  | ok i =>
    simp only [knowI, D1.verifyAccess, D1.withAek, Prog.ofExcept, Prog.attempt]
    split <;> rfl

theorem getSealedAccess_oid (P : Prims) (oid : Oid) {β : Type} (f : SealedAccess → Prog β) :
    (getSealedAccess P oid).bind f = (getSealedAccess P oid).bind fun sa => f { sa with oid := oid } := by
  simp only [getSealedAccess, Prog.bind_eq, Prog.pure_eq, Prog.bind_assoc]
  congr 1; funext b
  cases (P.unmarshal b).bind (SealedAccess.ofJ P) <;> rfl

theorem expand_checkI (d : D1) (aek : BytesN 32) (who : Except Err Identity) (i : Identity) (scope : Scope) (oid : Oid)
    (sa : SealedAccess) (k : Access → IProg Res) :
    (checkI i scope oid sa k).expand P aek =
      (Prog.ofExcept ((d.withAek aek who).authorizeAccess P i scope { sa with oid := oid })).bind fun a => (k a).expand P aek := by
  simp only [checkI, accessAad, IProg.expand_read, D1.authorizeAccess, SealedAccess.unseal, D1.withAek]
  cases (⟨aek.1⟩ : Cryptor).decrypt P Access.ofJ (.ofBytes (some oid.1)) sa.wrappedKey.bytes sa.ciphertext.bytes with
  | error e => rfl
  | ok a =>
    simp only [Prog.ofExcept, Prog.ret_bind]
    split <;> rfl

theorem expand_guardI (d : D1) (aek : BytesN 32) (who : Except Err Identity) (t : GoString) (scope : Scope) (oid : Oid)
    (k : Access → IProg Res) : (guardI P who scope oid k).expand P aek =
      (guardProg P (d.withAek aek who) t scope oid).bind fun a => (k a).expand P aek := by
  rw [guardI, expand_knowI d aek who t, guardProg, Prog.bind_assoc]
  congr 1; funext i
  rw [IProg.expand_after, Prog.bind_assoc]
  conv_rhs => rw [getSealedAccess_oid]
  congr 1; funext sa
  exact expand_checkI d aek who i scope oid sa k

theorem expand_sealI (L : P.Laws) (d : D1) (aek : BytesN 32) (who : Except Err Identity) (a : Access) (oid : Oid)
    (k : SealedAccess → IProg Res) : (sealI a oid k).expand P aek =
      (a.seal P oid (d.withAek aek who).accessCryptor).bind fun sa => (k sa).expand P aek := by
  simp only [sealI, accessAad, IProg.expand, Access.seal, Cryptor.encrypt_eq L, Prog.bind_eq, Prog.pure_eq, Prog.bind_assoc,
    Prog.ret_bind, D1.withAek]

theorem lookForAccess_bind (oid : Oid) {β : Type} (f : Prog β) (g : SealedAccess → Prog β) :
    ((lookForAccess P oid).bind fun r => match r with | none => f | some sa => g { sa with oid := oid }) =
    (getSealedAccess P oid).attempt fun r => match r with
      | .error .accessNotFound => f
      | .error e => .err e
      | .ok sa => g sa := by
  simp only [lookForAccess, getSealedAccess, Prog.bind_eq, Prog.pure_eq, ioGet, Prog.bind, Prog.attempt]
  congr 1; funext r
  cases r with
  | error e => cases e <;> rfl
  | ok b => 
    simp only [Prog.bind]
    cases (P.unmarshal b).bind (SealedAccess.ofJ P) <;> rfl

theorem expand_accessI (L : P.Laws) (d : D1) (aek : BytesN 32) (x : AsWhom) :
    (accessI P d x).expand P aek = callProg P (d.withAek aek x.1) x.2 := by
  obtain ⟨who, c⟩ := x
  cases c with
  | encrypt t o gs =>
    simp only [accessI, expand_knowI d aek who t, IProg.expand_after, expand_sealI L d aek who, IProg.expand, callProg, D1.encrypt,
      Prog.bind_eq, Prog.pure_eq, Prog.bind_assoc, Prog.ret_bind]
    rfl
  | update t oid o =>
    simp only [accessI, expand_guardI d aek who t, IProg.expand_after, expand_sealI L d aek who, IProg.expand, callProg, update_eq,
      Prog.bind_eq, Prog.pure_eq, Prog.bind_assoc, Prog.ret_bind]
    rfl
  | decrypt t oid =>
    simp only [accessI, expand_guardI d aek who t, IProg.expand_lift, callProg, decrypt_eq, Prog.bind_assoc]
    rfl
  | delete t oid =>
    simp only [accessI, expand_knowI d aek who t, IProg.expand_after, callProg, D1.delete, Prog.bind_eq, Prog.bind_assoc]
    congr 1; funext i
    have h := lookForAccess_bind (P := P) oid (.ret ()) fun sa =>
      (Prog.ofExcept ((d.withAek aek who).authorizeAccess P i scopeDelete sa)).bind fun _ =>
        (deleteSealedObject oid).bind fun _ => deleteSealedAccess oid
    refine Eq.trans ?_ (congrArg (fun p : Prog Unit => p.bind fun _ => .ret Res.unit) h)
    simp only [Prog.bind_assoc]
    congr 1; funext r
    cases r with
    | none => rfl
    | some sa => simp only [expand_checkI d aek who, IProg.expand_after, IProg.expand, Prog.bind_assoc]
  | getGroups t oid =>
    simp only [accessI, expand_guardI d aek who t, IProg.expand, callProg, getAccessGroups_eq, Prog.bind_assoc, Prog.ret_bind]
  | addGroups t oid gs =>
    simp only [accessI, expand_guardI d aek who t, IProg.expand_after, expand_sealI L d aek who, IProg.expand, callProg,
      addGroupsToAccess_eq, Prog.bind_assoc]
  | removeGroups t oid gs =>
    simp only [accessI, expand_guardI d aek who t, IProg.expand_after, expand_sealI L d aek who, IProg.expand, callProg,
      removeGroupsFromAccess_eq, Prog.bind_assoc]
  | authorize t oid =>
    simp only [accessI, expand_guardI d aek who t, IProg.expand, callProg, authorizeIdentity_eq, Prog.bind_assoc, Prog.ret_bind]

/-- The rights that a box stands for. -/
def rightsOf (aad : Bytes) (m : J) (f : Right) : Prop :=
  aad = accessAad f.1 ∧ ∃ a, Access.ofJ m.san = some a ∧ a.groups.has f.2 = true

theorem accessAad_inj (L : P.Laws) {o o' : Oid} (h : accessAad o = accessAad o') : o = o' :=
  Subtype.ext (Option.some.inj (ofBytes_render_inj L h))

theorem lookup_san (name : GoString) : ∀ (fs : JFields) (v : J), fs.san.lookup name = some v → ∃ w : J, v = w.san
  | .nil, v, h => nomatch h
  | .cons k x r, v, h => by
    simp only [JFields.san, JFields.lookup] at h
    cases hr : r.san.lookup name with
    | some y => rw [hr] at h; exact lookup_san name r v (by rw [hr]; exact h)
    | none =>
      rw [hr] at h
      simp only at h
      split at h
      · exact ⟨x, (Option.some.inj h).symm⟩
      · exact nomatch h

theorem keys_san : ∀ (fs : JFields) (l : List GoString), fs.san.keys = some l → ∀ g ∈ l, sanitize g = g
  | .nil, l, h, g, hg => by simp only [JFields.san, JFields.keys, Option.some.injEq] at h; subst h; simp at hg
  | .cons k v r, l, h, g, hg => by
    simp only [JFields.san, JFields.keys] at h
    cases hk : r.san.keys with
    | none => rw [hk] at h; split at h <;> simp_all
    | some l' =>
      rw [hk] at h
      have ih := keys_san r l' hk
      split at h
      · simp only [Option.some.injEq] at h
        rename_i _ _ _ _ heq
        simp only [Option.some.injEq] at heq
        subst h heq
        rcases List.mem_cons.mp hg with rfl | hg
        · exact sanitize_idem k
        · exact ih g hg
      · simp only [Option.some.injEq] at h
        rename_i _ _ _ heq
        simp only [Option.some.injEq] at heq
        subst h heq
        rcases List.mem_cons.mp hg with rfl | hg
        · exact sanitize_idem k
        · exact ih g hg
      · exact nomatch h

/-- Group IDs read from JSON text are sanitized. -/
theorem groups_san {fs : JFields} {s : GoSet} {g : GoString} (hf : field fs.san nGroups none J.toSet = some s) (hg : s.has g = true) :
    sanitize g = g := by
  rw [field] at hf
  cases hl : fs.san.lookup nGroups with
  | none => rw [hl] at hf; simp only [Option.some.injEq] at hf; rw [← hf] at hg; exact nomatch hg
  | some v =>
    rw [hl] at hf
    obtain ⟨w, rfl⟩ := lookup_san nGroups fs v hl
    cases w with
    | obj gs =>
      simp only [J.san, J.toSet] at hf
      cases hk : gs.san.keys with
      | none => rw [hk] at hf; exact nomatch hf
      | some l =>
        rw [hk] at hf
        simp only [Option.map_some, Option.some.injEq] at hf
        rw [← hf] at hg
        simp only [GoSet.has, decide_eq_true_eq, mem_foldl_setInsert, List.not_mem_nil, false_or] at hg
        exact keys_san gs l hk g hg
    | null => simp only [J.san, J.toSet, Option.some.injEq] at hf; rw [← hf] at hg; exact nomatch hg
    | _ => exact nomatch hf

theorem fields_san {m : J} {fs : JFields} (h : m.san.fields = some fs) : ∃ fs' : JFields, fs = fs'.san := by
  cases m with
  | null => cases h; exact ⟨.nil, rfl⟩
  | obj fs => cases h; exact ⟨fs, rfl⟩
  | _ => exact nomatch h

theorem read_san {m : J} {a : Access} (h : Access.ofJ m.san = some a) {g : GoString} (hg : a.groups.has g = true) : sanitize g = g := by
  simp only [Access.ofJ, Option.bind_eq_bind, Option.bind_eq_some_iff, Option.pure_def, Option.some.injEq] at h
  obtain ⟨fs, h1, gr, h2, w, -, rfl⟩ := h
  obtain ⟨fs, rfl⟩ := fields_san h1
  exact groups_san h2 hg

/-- Rights that are sealed come from what was read, or from groups. -/
theorem rightsOf_seal (L : P.Laws) {oid : Oid} {a : Access} {f : Right} (h : rightsOf (accessAad oid) a.toJ f) :
    f.1 = oid ∧ ∃ g, a.groups.has g = true ∧ f.2 = sanitize g := by
  obtain ⟨h1, b, h2, h3⟩ := h
  refine ⟨(accessAad_inj L h1).symm, ?_⟩
  rw [Access.ofJ_toJ, Option.some.injEq] at h2
  subst h2
  cases hg : a.groups with
  | none => rw [hg] at h3; exact nomatch h3
  | some l =>
    rw [hg] at h3
    simp only [Option.map_some, GoSet.has, decide_eq_true_eq, mem_sanList] at h3
    obtain ⟨g, hm, e⟩ := h3
    exact ⟨g, by simpa [GoSet.has] using hm, e.symm⟩

theorem has_add {a b : Access} {gs : List GoString} (h : a.addGroups gs = some b) {g : GoString} (hg : b.groups.has g = true) :
    a.groups.has g = true ∨ g ∈ gs := by
  rw [Access.addGroups] at h
  cases ha : a.groups with
  | none =>
    cases gs with
    | nil =>
      simp only [ha, addToSet, Option.map_some, Option.some.injEq] at h
      subst h
      exact nomatch hg
    | cons x gs => rw [ha] at h; exact nomatch h
  | some l =>
    rw [ha, addToSet_some, Option.map_some, Option.some.injEq] at h
    subst h
    simp only [GoSet.has, decide_eq_true_eq, mem_foldl_setInsert] at hg ⊢
    exact hg

theorem has_remove {a : Access} {gs : List GoString} {g : GoString} (hg : (a.removeGroups gs).groups.has g = true) :
    a.groups.has g = true := by
  have key : ∀ (gs l : List GoString), g ∈ gs.foldl setErase l → g ∈ l := by
    intro gs
    induction gs with
    | nil => exact fun l h => h
    | cons x gs ih =>
      intro l h
      have := ih _ h
      simp only [setErase, List.mem_filter] at this
      exact this.1
  simp only [Access.removeGroups, removeFromSet] at hg
  cases ha : a.groups with
  | none => rw [ha] at hg; exact nomatch hg
  | some l =>
    rw [ha] at hg
    simp only [Option.map_some, GoSet.has, decide_eq_true_eq] at hg ⊢
    exact key gs l hg

theorem keeps_knowI {x : AsWhom} {scope : Scope} {who : Except Err Identity} {K : Right → Prop} {k : Identity → IProg Res}
    {H : Outcome Res ⊕ Eff → Prop} (hk : ∀ i, who = .ok i → (k i).Keeps rightsOf accessTerms x K H) :
    (knowI who scope k).Keeps rightsOf accessTerms x K H := by
  cases who with
  | error e => trivial
  | ok i =>
    simp only [knowI]
    split
    · trivial
    · exact hk i rfl

/-- With the rights that were read the program can go on. -/
theorem keeps_checkI {x : AsWhom} {scope : Scope} {i : Identity} {oid : Oid} {sa : SealedAccess} {k : Access → IProg Res}
    {H : Outcome Res ⊕ Eff → Prop} (hk : ∀ (K : Right → Prop) a, (∃ f, needsRight (.ok i) scope oid f ∧ K f) →
      (∀ g, a.groups.has g = true → K (oid, g) ∧ sanitize g = g) → (k a).Keeps rightsOf accessTerms x K H) (K : Right → Prop) :
    (checkI i scope oid sa k).Keeps rightsOf accessTerms x K H := by
  refine IProg.keeps_read fun m a ha => ?_
  split
  · next h =>
    simp only [List.any_eq_true, Access.containsGroups, List.all_cons, List.all_nil, Bool.and_true, Bool.and_eq_true] at h
    obtain ⟨g, h1, h2, h3⟩ := h
    exact hk _ a ⟨(oid, g), ⟨rfl, i, rfl, h1, h3⟩, .inr ⟨rfl, a, ha, h2⟩⟩ fun g hg => ⟨.inr ⟨rfl, a, ha, hg⟩, read_san ha hg⟩
  · trivial

theorem sends_getSealedAccess {Q : Eff → Prop} (h : ∀ id dt, Q (.get id dt)) (oid : Oid) : (getSealedAccess P oid).Sends Q := by
  refine Prog.sends_bind (p := ioGet _ _ _) ⟨h _ _, fun r => ?_⟩ fun b => ?_
  · cases r <;> trivial
  · cases (P.unmarshal b).bind (SealedAccess.ofJ P) <;> trivial

theorem keeps_guardI {who : Except Err Identity} {c : Call} {scope : Scope} {oid : Oid} {k : Access → IProg Res}
    (hn : ∀ id dt D, ¬accessTerms.needs (who, c) (.inr (.get id dt)) D)
    (hk : ∀ (K : Right → Prop) a H, Unended H → (∃ f, needsRight who scope oid f ∧ K f) →
      (∀ g, a.groups.has g = true → K (oid, g) ∧ sanitize g = g) → (k a).Keeps rightsOf accessTerms (who, c) K H) :
    (guardI P who scope oid k).Keeps rightsOf accessTerms (who, c) (fun _ => False) fun _ => False := by
  refine keeps_knowI fun i hi => IProg.keeps_after _ (sends_getSealedAccess (fun id dt D hD => ?_) oid) nofun fun sa H hH _ => ?_
  · exact (hn _ _ _ hD).elim
  · subst hi
    exact keeps_checkI (fun K a => hk K a H hH) _

/-- With the right at hand everything may be done. -/
theorem met_needsFor {D : Right → Prop} {K : Right → Prop} (h : ∃ f, D f ∧ K f) (s : Res ⊕ Eff) (E : Right → Prop)
    (hE : needsFor D s E) : ∃ f, E f ∧ K f := by
  cases s with
  | inl r => exact (show E = D from hE) ▸ h
  | inr e => exact hE.2 ▸ h

/-- Sealing rights that were read. -/
theorem keeps_sealI (L : P.Laws) {x : AsWhom} {K : Right → Prop} {a : Access} {oid : Oid} {k : SealedAccess → IProg Res}
    {H : Outcome Res ⊕ Eff → Prop}
    (hr : ∀ c w g, a.groups.has g = true → K (oid, sanitize g) ∨ (k ⟨oid, c, w⟩).Soon (accessTerms.brings x (oid, sanitize g)) H)
    (hk : ∀ sa, (k sa).Keeps rightsOf accessTerms x K H) : (sealI a oid k).Keeps rightsOf accessTerms x K H := by
  refine fun r => ⟨fun f hf => ?_, hk _⟩
  obtain ⟨h1, g, hg, h2⟩ := rightsOf_seal L hf
  obtain rfl : f = (oid, sanitize g) := Prod.ext h1 h2
  exact hr _ _ g hg

theorem keeps_accessI (L : P.Laws) (d : D1) (x : AsWhom) :
    (accessI P d x).Keeps rightsOf accessTerms x (fun _ => False) fun _ => False := by
  obtain ⟨who, c⟩ := x
  cases c with
  | encrypt t o gs =>
    have hs : ∀ {β : Type} (p : Prog β), p.Sends fun e => accessTerms.Met (who, .encrypt t o gs) (.inr e) fun _ => False :=
      fun p => Prog.sends_all (fun e D hD => nomatch hD) p
    have hq : Prog.Does (Sum.elim (fun y => y.2.2.oid = y.1) fun e => accessTerms.Met (who, .encrypt t o gs) (.inr e) fun _ => False)
        (newV4.bind fun oid => (o.seal P oid d.objectCryptor).bind fun r => .ret (oid, r)) := by
      refine Prog.does_bind (hs _) fun oid => ?_
      rw [Object.seal]
      simp only [Prog.bind_eq, Prog.pure_eq, Prog.bind_assoc, Prog.ret_bind]
      exact Prog.does_bind (hs _) fun _ => rfl
    refine keeps_knowI fun i hi => IProg.keeps_afterwards hq nofun fun y H hy hH _ => ?_
    cases hp : (newAccess y.2.1).addGroups (gs ++ [i.id]) with
    | none => trivial
    | some a =>
      simp only [Prog.ofPanic, IProg.after]
      refine keeps_sealI L (fun c w g hg => .inr ?_) fun sa => IProg.keeps_after _ (hs _) hH fun _ _ _ _ => fun D hD => nomatch hD
      refine IProg.soon_sent nofun fun H' _ h => ⟨?_, _, _, hy ▸ h⟩
      rcases has_add hp hg with h | h
      · exact nomatch h
      · exact ⟨i, g, hi, by simpa using h, rfl⟩
  | update t oid o =>
    refine keeps_guardI (fun _ _ _ h => nomatch h.1) fun K a H hH hK ha => ?_
    have hm : ∀ s, accessTerms.Met (who, .update t oid o) s K := fun s => met_needsFor hK s
    refine IProg.keeps_after _ (Prog.sends_all (fun e => hm _) _) hH fun r H hH _ => keeps_sealI L (fun c w g hg => .inl ?_) fun sa => ?_
    · rw [(ha g hg).2]; exact (ha g hg).1
    · exact IProg.keeps_after _ (Prog.sends_all (fun e => hm _) _) hH fun _ _ _ _ => hm _
  | decrypt t oid =>
    refine keeps_guardI (fun _ _ _ h => nomatch h.1) fun K a H hH hK ha => ?_
    have hm : ∀ s, accessTerms.Met (who, .decrypt t oid) s K := fun s => met_needsFor hK s
    exact IProg.keeps_after _ (Prog.sends_all (fun e => hm _) _) hH fun _ _ _ _ => hm _
  | getGroups t oid =>
    exact keeps_guardI (fun _ _ _ h => nomatch h.1) fun K a H hH hK ha => fun D hD => met_needsFor hK (.inl (.groups a.groups.has)) D hD
  | authorize t oid => exact keeps_guardI (fun _ _ _ h => nomatch h.1) fun K a H hH hK ha => fun D hD => met_needsFor hK (.inl .unit) D hD
  | addGroups t oid gs =>
    refine keeps_guardI (fun _ _ _ h => nomatch h.1) fun K a H hH hK ha => ?_
    have hm : ∀ s, accessTerms.Met (who, .addGroups t oid gs) s K := fun s => met_needsFor hK s
    cases hp : a.addGroups gs with
    | none => trivial
    | some b =>
      simp only [Prog.ofPanic, IProg.after]
      refine keeps_sealI L (fun c w g hg => ?_) fun sa => IProg.keeps_after _ (Prog.sends_all (fun e => hm _) _) hH fun _ _ _ _ => hm _
      rcases has_add hp hg with h | h
      · rw [(ha g h).2]; exact .inl (ha g h).1
      · exact .inr (IProg.soon_sent nofun fun H' _ h' => ⟨⟨rfl, g, h, rfl⟩, _, h'⟩)
  | removeGroups t oid gs =>
    refine keeps_guardI (fun _ _ _ h => nomatch h.1) fun K a H hH hK ha => ?_
    have hm : ∀ s, accessTerms.Met (who, .removeGroups t oid gs) s K := fun s => met_needsFor hK s
    refine keeps_sealI L (fun c w g hg => .inl ?_) fun sa => IProg.keeps_after _ (Prog.sends_all (fun e => hm _) _) hH fun _ _ _ _ => hm _
    have := ha g (has_remove hg)
    rw [this.2]; exact this.1
  | delete t oid =>
    refine keeps_knowI fun i hi => IProg.keeps_after _ ?_ nofun fun r H hH _ => ?_
    · have hg : ∀ id dt, accessTerms.Met (who, .delete t oid) (.inr (.get id dt)) fun _ => False := fun id dt D hD => nomatch hD
      refine ⟨hg _ _, fun r => ?_⟩
      cases r with
      | error e => cases e <;> trivial
      | ok b =>
        show Prog.Sends _ (Prog.attempt (match (P.unmarshal b).bind (SealedAccess.ofJ P) with | none => _ | some a => _) _)
        cases (P.unmarshal b).bind (SealedAccess.ofJ P) <;> trivial
    · cases r with
      | none => exact fun D hD => nomatch hD
      | some sa =>
        subst hi
        refine keeps_checkI (fun K a hK ha => ?_) _
        have hm : ∀ e, accessTerms.Met (.ok i, .delete t oid) (.inr e) K := fun e D hD => met_needsFor hK (.inr e) D hD
        exact IProg.keeps_after _ (Prog.sends_all hm _) hH fun _ _ _ _ => fun D hD => nomatch hD

/-- C99: whoever has a call act on a right that was not granted tells wrapped keys from other keys, or forges AES-GCM
ciphertexts. -/
theorem C99_rights (L : P.Laws) (d : D1) (A : Spy AsWhom Res) (n : Nat) :
    chance (trialGame (fun aek x => callProg P (d.withAek aek x.1) x.2) accessTerms A n) ≤
      wrapGap P (unwrapAttack P (accessI P d) accessTerms A n) + forgeGap P (forgeAttack P (accessI P d) accessTerms A n) := by
  have h := trial_chance L (keeps_accessI L d) A n
  simp only [expand_accessI L] at h
  exact h

theorem bursts_knowI {b n : Nat} {who : Except Err Identity} {scope : Scope} {k : Identity → IProg Res} (hk : ∀ i, (k i).Bursts b n) :
    (knowI who scope k).Bursts b n := by
  cases who with
  | error e => cases n <;> trivial
  | ok i =>
    simp only [knowI]
    split
    · cases n <;> trivial
    · exact hk i

theorem bursts_checkI {b n : Nat} {i : Identity} {scope : Scope} {oid : Oid} {sa : SealedAccess} {k : Access → IProg Res}
    (hk : ∀ a, (k a).Bursts b n) : (checkI i scope oid sa k).Bursts b (n + 1) := by
  refine IProg.bursts_read fun a => ?_
  split
  · exact hk a
  · cases n <;> trivial

theorem bursts_guardI {b n : Nat} (hn : n + 1 ≤ b) {who : Except Err Identity} {scope : Scope} {oid : Oid} {k : Access → IProg Res}
    (hk : ∀ a, (k a).Bursts b n) : (guardI P who scope oid k).Bursts b (n + 1) :=
  bursts_knowI fun _ => IProg.bursts_after hn _ fun _ => bursts_checkI hk

theorem bursts_accessI (d : D1) (x : AsWhom) : (accessI P d x).Bursts 2 2 := by
  obtain ⟨who, c⟩ := x
  have h2 := Nat.le_refl 2
  have h1 : 1 ≤ 2 := by omega
  have h0 := Nat.zero_le 2
  cases c with
  | encrypt t o gs =>
    exact bursts_knowI fun i => IProg.bursts_after h2 _ fun y => IProg.bursts_after h2 _ fun a => fun r => IProg.bursts_after h1 _ fun _ => trivial
  | update t oid o =>
    exact bursts_guardI h2 fun a => IProg.bursts_after h1 _ fun r => fun s => IProg.bursts_after h0 _ fun _ => trivial
  | decrypt t oid => exact bursts_guardI h2 fun a => IProg.bursts_lift h1 _
  | getGroups t oid => exact bursts_guardI h2 fun a => trivial
  | authorize t oid => exact bursts_guardI h2 fun a => trivial
  | addGroups t oid gs => exact bursts_guardI h2 fun a => IProg.bursts_after h1 _ fun b => fun r => IProg.bursts_after h0 _ fun _ => trivial
  | removeGroups t oid gs => exact bursts_guardI h2 fun a => fun r => IProg.bursts_after h0 _ fun _ => trivial
  | delete t oid =>
    refine bursts_knowI fun i => IProg.bursts_after h2 _ fun r => ?_
    cases r with
    | none => trivial
    | some sa => exact bursts_checkI fun a => IProg.bursts_after h1 _ fun _ => trivial

/-- C99: the attacks ask no more than two questions for a move of the adversary. -/
theorem C99_questions (d : D1) (A : Spy AsWhom Res) (n : Nat) :
    (unwrapAttack P (accessI P d) accessTerms A n).Asks (2 * n) ∧ (forgeAttack P (accessI P d) accessTerms A n).Asks (2 * n) :=
  ⟨bursts_unwrapAttack P accessTerms (bursts_accessI d) A n, bursts_forgeAttack P accessTerms (bursts_accessI d) A n⟩

end

/-! ## C100 -/

/-- A token is made, or opened. -/
inductive TokenUse where
  | create (contents : NBytes)
  | open (t : SealedToken)

inductive TokenRes where
  | token (t : SealedToken)
  | contents (p : NBytes)

def tokenUse (P : Prims) (d : D1) : TokenUse → Prog TokenRes
  | .create p => (d.createToken P p).bind fun t => .ret (.token t)
  | .open t => (d.getTokenContents P t).bind fun p => .ret (.contents p)

/-- `CreateToken` makes a token with contents and the expiry time of the token, when it returns the token; `GetTokenContents` should
return the contents of such a token. -/
def tokenTerms : Terms TokenUse TokenRes (NBytes × Int) where
  brings
    | .create p, f, H => f.1 = p ∧ ∃ t, H (.inl (.ok (.token t))) ∧ t.expiryTime.ns = f.2
    | .open _, _, _ => False
  needs
    | .open t, .inl (.contents p), D => D = (· = (p, t.expiryTime.ns))
    | _, _, _ => False

def tokenI (P : Prims) : TokenUse → IProg TokenRes
  | .create p => .after timeNow fun now =>
      .box (.ofBytes p) (J.ofTime P (now.add tokenValidity)).render
        fun x => .ret (.token ⟨now.add tokenValidity, some x.2, some x.1⟩)
  | .open t => .after timeNow fun now => if t.expiryTime.before now then .err .tokenExpired else
      .read J.toBytes (J.ofTime P t.expiryTime).render t.wrappedKey.bytes t.ciphertext.bytes fun p => .ret (.contents p)

theorem expand_tokenI {P : Prims} (L : P.Laws) (d : D1) (tek : BytesN 32) (x : TokenUse) :
    (tokenI P x).expand P tek = tokenUse P (d.withTek tek) x := by
  cases x with
  | create p =>
    simp only [tokenI, IProg.expand_after, IProg.expand, tokenUse, D1.createToken, newToken, Token.seal, Cryptor.encrypt_eq L,
      Prog.bind_eq, Prog.pure_eq, Prog.bind_assoc, Prog.ret_bind]
    rfl
  | «open» t =>
    simp only [tokenI, tokenUse, IProg.expand_after, D1.getTokenContents, SealedToken.unseal, Prog.bind_eq, Prog.pure_eq, timeNow,
      Prog.bind]
    congr 1; funext now
    split
    · rfl
    · rw [IProg.expand_read]
      simp only [D1.withTek]
      cases (⟨tek.1⟩ : Cryptor).decrypt P J.toBytes (J.ofTime P t.expiryTime) t.wrappedKey.bytes t.ciphertext.bytes <;> rfl

/-- The contents and the expiry time that a box stands for. -/
def tokenOf (P : Prims) (aad : Bytes) (m : J) (f : NBytes × Int) : Prop :=
  (∃ t, aad = (J.ofTime P t).render ∧ f.2 = t.ns) ∧ m.san.toBytes = some f.1

theorem keeps_tokenI {P : Prims} (L : P.Laws) (x : TokenUse) : (tokenI P x).Keeps (tokenOf P) tokenTerms x (fun _ => False) fun _ => False := by
  cases x with
  | create p =>
    refine IProg.keeps_after _ (Prog.sends_all (fun e D hD => nomatch hD) _) nofun fun now H hH _ => fun r => ⟨fun f hf => .inr ?_, ?_⟩
    · obtain ⟨⟨t, h1, h2⟩, h3⟩ := hf
      rw [san_ofBytes, toBytes_ofBytes, Option.some.injEq] at h3
      exact ⟨h3.symm, _, .inr rfl, ((ofTime_render_inj L h1).2).trans h2.symm⟩
    · exact fun D hD => nomatch hD
  | «open» t =>
    refine IProg.keeps_after _ (Prog.sends_all (fun e D hD => nomatch hD) _) nofun fun now H hH _ => ?_
    split
    · trivial
    · refine IProg.keeps_read fun m p hp D hD => ?_
      simp only [tokenTerms] at hD
      subst hD
      exact ⟨_, rfl, .inr ⟨⟨_, rfl, rfl⟩, hp⟩⟩

/-- C100: whoever has contents of a token returned that was not made tells wrapped keys from other keys, or forges AES-GCM
ciphertexts. -/
theorem C100_tokens {P : Prims} (L : P.Laws) (d : D1) (A : Spy TokenUse TokenRes) (n : Nat) :
    chance (trialGame (fun tek => tokenUse P (d.withTek tek)) tokenTerms A n) ≤
      wrapGap P (unwrapAttack P (tokenI P) tokenTerms A n) + forgeGap P (forgeAttack P (tokenI P) tokenTerms A n) := by
  have h := trial_chance L (keeps_tokenI L) A n
  simp only [expand_tokenI L d] at h
  exact h

theorem bursts_tokenI (P : Prims) (x : TokenUse) : (tokenI P x).Bursts 1 1 := by
  cases x with
  | create p => exact IProg.bursts_after (Nat.le_refl 1) _ fun _ => fun _ => trivial
  | «open» t =>
    refine IProg.bursts_after (Nat.le_refl 1) _ fun now => ?_
    split
    · trivial
    · exact IProg.bursts_read fun p => trivial

/-- C100: the attacks ask no more often than the adversary moves. -/
theorem C100_questions (P : Prims) (A : Spy TokenUse TokenRes) (n : Nat) :
    (unwrapAttack P (tokenI P) tokenTerms A n).Asks n ∧ (forgeAttack P (tokenI P) tokenTerms A n).Asks n := by
  have h1 := bursts_unwrapAttack P tokenTerms (bursts_tokenI P) A n
  have h2 := bursts_forgeAttack P tokenTerms (bursts_tokenI P) A n
  rw [Nat.one_mul] at h1 h2
  exact ⟨h1, h2⟩

/-! ## Cases

With primitives that make no use of their keys the adversaries below win every time, so the right hand sides of the theorems
are at least 1. -/

def hollowPrims : Prims where
  aesEnc _ b := b
  aesDec _ b := b
  gcmSeal _ _ _ p := p ++ List.replicate 16 0
  gcmOpen _ _ _ c := if 16 ≤ c.length ∧ c.drop (c.length - 16) = List.replicate 16 0 then some (c.take (c.length - 16)) else none
  sponge := toyPrims.sponge
  pbkdf2 := toyPrims.pbkdf2
  unmarshal := toyPrims.unmarshal
  uuidParse := toyPrims.uuidParse
  timeText := toyPrims.timeText
  timeParse := toyPrims.timeParse

theorem hollowLaws : hollowPrims.Laws where
  aes_len _ _ h := h
  aes_dec_enc _ _ _ := rfl
  aes_dec_len _ _ h := h
  aes_enc_dec _ _ _ := rfl
  gcm_len _ _ _ p := by simp [hollowPrims]
  gcm_open_seal _ _ _ p := by simp [hollowPrims]
  gcm_seal_open _ _ _ c p h := by
    simp only [hollowPrims] at h ⊢
    split at h
    · next hc =>
      simp only [Option.some.injEq] at h
      subst h
      conv_lhs => rw [← List.take_append_drop (c.length - 16) c]
      rw [hc.2]
    · exact nomatch h
  sponge_len := toyLaws.sponge_len
  pbkdf2_len := toyLaws.pbkdf2_len
  unmarshal_render := toyLaws.unmarshal_render
  uuid_parse := toyLaws.uuid_parse
  time_parse := toyLaws.time_parse
  time_plain := toyLaws.time_plain

def noKey : BytesN 32 := ⟨List.replicate 32 0, by simp⟩
def noNonce : BytesN 12 := ⟨List.replicate 12 0, by simp⟩

/-- What the adversary makes up. -/
def madeUp (aad : J) (m : J) : Bytes × Bytes :=
  (kwpBox hollowPrims noKey.1 noKey.1, gcmBox hollowPrims noKey.1 noNonce.1 aad.render m.render)

/-- It is opened with any key. -/
theorem decrypt_madeUp {α : Type} (kek : Bytes) (dec : J → Option α) (aad m : J) {a : α} (h : dec m.san = some a) :
    (⟨kek⟩ : Cryptor).decrypt hollowPrims dec aad (madeUp aad m).1 (madeUp aad m).2 = .ok a := by
  have hk : kwpUnwrap hollowPrims kek (madeUp aad m).1 = .ok noKey.1 := kwpUnwrap_box hollowLaws kek noKey.1 noKey.2
  have hg : gcmDecrypt hollowPrims (madeUp aad m).2 aad.render noKey.1 = .ok m.render :=
    gcmDecrypt_box hollowLaws noKey.1 aad.render m.render noNonce noKey.2
  rw [Cryptor.decrypt, hk]
  simp only [hg, hollowLaws.unmarshal_render, Option.bind_some, h]

theorem chance_true : chance (PMF.pure true) = 1 := by simp [chance]

section
variable {X R F : Type} {A : Spy X R} {prog : X → Prog R} {t : Terms X R F} {n : Nat} {x : X} {v : List (Sight R)}

theorem solo_begin (hm : A.move n [] = .begin x) : A.trial prog t (n + 1) [] [] [] = A.trial prog t n [some x] [] [prog x] := by
  simp only [Spy.trial, hm, List.nil_append]

theorem solo_op {e : Eff} {k : e.Resp → Prog R} (hm : A.move n v = .step 0) (he : ∀ n, e ≠ .rand n) (hn : ∀ D, ¬t.needs x (.inr e) D) :
    A.trial prog t (n + 1) [some x] v [.op e k] =
      A.trial prog t n [some x] (v ++ [.request 0 ⟨e, A.answer v e⟩]) [k (A.answer v e)] := by
  have hs : settle (.op e k) = PMF.pure (.op e k) := by
    cases e with
    | rand n => exact (he n rfl).elim
    | _ => rfl
  simp only [Spy.trial, hm, List.getElem?_cons_zero, hs, PMF.pure_bind, nextStep]
  refine (if_neg ?_).trans rfl
  rintro ⟨y, D, h1, h2, -⟩
  cases h1
  exact hn _ h2

theorem solo_ret {r : R} {D : F → Prop} (hm : A.move n v = .step 0) (hn : t.needs x (.inl r) D) (hc : ∀ f H, ¬t.brings x f H) :
    A.trial prog t (n + 1) [some x] v [.ret r] = PMF.pure true := by
  simp only [Spy.trial, hm, List.getElem?_cons_zero, settle, PMF.pure_bind, nextStep]
  refine if_pos ⟨r, rfl, x, D, rfl, hn, ?_⟩
  rintro ⟨f, -, i, y, hi, hy⟩
  cases i with
  | zero => cases hi; exact hc f _ hy
  | succ i => exact nomatch hi

end

def hollowToken : SealedToken :=
  ⟨⟨0, 0⟩, some (madeUp (.ofTime hollowPrims ⟨0, 0⟩) (.ofBytes (some [1]))).2, some (madeUp (.ofTime hollowPrims ⟨0, 0⟩) (.ofBytes (some [1]))).1⟩

/-- The adversary has a token opened that it made up. -/
def tokenForger : Spy TokenUse TokenRes where
  answer _ e := (Store.exec (fun _ _ => none) (fun _ => none) ⟨0, 0⟩ e).1
  move
    | 2, _ => .begin (.open hollowToken)
    | _, _ => .step 0
  guess _ := false

theorem C100_case : chance (trialGame (fun tek => tokenUse hollowPrims (toyD1.withTek tek)) tokenTerms tokenForger 3) = 1 := by
  have h : ∀ tek, tokenForger.trial (tokenUse hollowPrims (toyD1.withTek tek)) tokenTerms 3 [] [] [] = PMF.pure true := by
    intro tek
    have hp : tokenUse hollowPrims (toyD1.withTek tek) (.open hollowToken) = .op .now fun now =>
        if hollowToken.expiryTime.before now then .err .tokenExpired else .ret (.contents (some [1])) := by
      simp only [tokenUse, D1.getTokenContents, SealedToken.unseal, Prog.bind_eq, Prog.pure_eq, timeNow, Prog.bind]
      congr 1; funext now
      have hd : (toyD1.withTek tek).tokenCryptor.decrypt hollowPrims J.toBytes (.ofTime hollowPrims hollowToken.expiryTime)
          hollowToken.wrappedKey.bytes hollowToken.ciphertext.bytes = .ok (some [1]) :=
        decrypt_madeUp tek.1 J.toBytes (.ofTime hollowPrims ⟨0, 0⟩) (.ofBytes (some [1])) (by rw [san_ofBytes, toBytes_ofBytes])
      split
      · rfl
      · rw [hd]
        rfl
    have hb : hollowToken.expiryTime.before ⟨0, 0⟩ = false := by decide
    rw [solo_begin (x := .open hollowToken) rfl, hp]
    have ha : (if hollowToken.expiryTime.before (tokenForger.answer [] .now) then .err .tokenExpired
        else .ret (.contents (some [1]))) = Prog.ret (TokenRes.contents (some [1])) := if_neg (by rw [Bool.not_eq_true]; exact hb)
    rw [solo_op rfl (by intro n h; exact nomatch h) (by intro D h; first | exact nomatch h | exact nomatch h.1), ha]
    exact solo_ret rfl rfl fun f H hf => hf
  simp only [trialGame, h, PMF.bind_const, chance_true]

/-- An access record that gives access to user `A`, and an object; both made up. -/
def hollowAccess : SealedAccess :=
  ⟨nilOid, some (madeUp (.ofBytes (some nilOid.1)) (⟨some [[65]], some (kwpBox hollowPrims noKey.1 noKey.1)⟩ : Access).toJ).2,
    some (madeUp (.ofBytes (some nilOid.1)) (⟨some [[65]], some (kwpBox hollowPrims noKey.1 noKey.1)⟩ : Access).toJ).1⟩

def hollowObject : SealedObject := ⟨some (madeUp (objectAad nilOid none) (.ofBytes (some [1]))).2, none, nilOid⟩

/-- The IO Provider answers with these. -/
def hollowAnswer (e : Eff) : e.Resp :=
  match e with
  | .get _ dt => .ok (if dt = dtObject then hollowObject.toJ.render else hollowAccess.toJ.render)
  | e => (Store.exec (fun _ _ => none) (fun _ => none) ⟨0, 0⟩ e).1

theorem sanList_A : sanList [[65]] = [[65]] := by decide

theorem unseal_hollowAccess (aek : Bytes) : hollowAccess.unseal hollowPrims ⟨aek⟩ =
    .ok ⟨some [[65]], some (kwpBox hollowPrims noKey.1 noKey.1)⟩ :=
  decrypt_madeUp aek Access.ofJ (.ofBytes (some nilOid.1)) _ (by rw [Access.ofJ_toJ]; simp only [Option.map_some, sanList_A])

theorem unseal_hollowObject (kek : Bytes) :
    hollowObject.unseal hollowPrims (some (kwpBox hollowPrims noKey.1 noKey.1)) ⟨kek⟩ = .ok ⟨some [1], none⟩ := by
  have h := decrypt_madeUp kek J.toBytes (objectAad nilOid none) (.ofBytes (some [1])) (by rw [san_ofBytes, toBytes_ofBytes])
  rw [SealedObject.unseal]
  have h : Cryptor.decrypt hollowPrims ⟨kek⟩ J.toBytes (objectAad hollowObject.oid hollowObject.associatedData)
      (NBytes.bytes (some (kwpBox hollowPrims noKey.1 noKey.1))) hollowObject.ciphertext.bytes = .ok (some [1]) := h
  rw [h]
  rfl

theorem hollowAnswer_access (id : Bytes) : hollowAnswer (.get id dtAccess) = .ok hollowAccess.toJ.render :=
  congrArg Except.ok (if_neg (by decide))

theorem hollowAnswer_object (id : Bytes) : hollowAnswer (.get id dtObject) = .ok hollowObject.toJ.render :=
  congrArg Except.ok (if_pos rfl)

/-- Fetching the access record. -/
theorem guard_get {α : Type} {P : Prims} (L : P.Laws) {d : D1} {t : GoString} {i : Identity} {scope : Scope} {sa : SealedAccess}
    {a : Access} (hv : d.verifyAccess t scope = .ret i) (ha : d.authorizeAccess P i scope sa = .ok a) (f : Access → Prog α) :
    ∃ k, (guardProg P d t scope sa.oid).bind f = .op (.get sa.oid.1 dtAccess) k ∧ k (.ok sa.toJ.render) = f a := by
  rw [guardProg, hv]
  simp only [getSealedAccess, ioGet, Prog.bind_eq, Prog.pure_eq, Prog.bind]
  refine ⟨_, rfl, ?_⟩
  simp only [Prog.bind, L.unmarshal_render, Option.bind_some, SealedAccess.ofJ_toJ L, ha, Prog.ofExcept]

/-- Fetching the object. -/
theorem object_get {α : Type} {P : Prims} (L : P.Laws) (so : SealedObject) (f : SealedObject → Prog α) :
    ∃ k, (getSealedObject P so.oid).bind f = .op (.get so.oid.1 dtObject) k ∧ k (.ok so.toJ.render) = f so := by
  simp only [getSealedObject, ioGet, Prog.bind_eq, Prog.pure_eq, Prog.bind]
  refine ⟨_, rfl, ?_⟩
  simp only [Prog.bind, L.unmarshal_render, Option.bind_some, SealedObject.ofJ_toJ L]

/-- The adversary has user `A` authorized for an object that does not exist. -/
def rightForger : Spy AsWhom Res where
  answer _ e := hollowAnswer e
  move
    | 2, _ => .begin (.ok ⟨[65], scopeAll, []⟩, .authorize [] nilOid)
    | _, _ => .step 0
  guess _ := false

theorem C99_case :
    chance (trialGame (fun aek x => callProg hollowPrims (toyD1.withAek aek x.1) x.2) accessTerms rightForger 3) = 1 := by
  have h : ∀ aek, rightForger.trial (fun x => callProg hollowPrims (toyD1.withAek aek x.1) x.2) accessTerms 3 [] [] [] =
      PMF.pure true := by
    intro aek
    obtain ⟨k, hp, hk⟩ := guard_get hollowLaws (sa := hollowAccess) (d := toyD1.withAek aek (.ok ⟨[65], scopeAll, []⟩)) (t := []) (i := ⟨[65], scopeAll, []⟩)
      (scope := scopeGetAccessGroups) rfl (by simp only [D1.authorizeAccess, D1.withAek, unseal_hollowAccess]; rfl)
      fun _ => .ret Res.unit
    rw [← hollowAnswer_access hollowAccess.oid.1] at hk
    have hp : callProg hollowPrims (toyD1.withAek aek (.ok ⟨[65], scopeAll, []⟩)) (.authorize [] nilOid) = .op _ k := by
      rw [callProg, authorizeIdentity_eq, Prog.bind_assoc]
      exact hp
    rw [solo_begin (x := (.ok ⟨[65], scopeAll, []⟩, .authorize [] nilOid)) rfl, hp]
    have ha : k (rightForger.answer [] (.get hollowAccess.oid.1 dtAccess)) = .ret .unit := hk
    rw [solo_op rfl (by intro n h; exact nomatch h) (by intro D h; first | exact nomatch h | exact nomatch h.1), ha]
    exact solo_ret rfl rfl fun f H hf => hf
  simp only [trialGame, h, PMF.bind_const, chance_true]

/-- The adversary has an object decrypted that was not encrypted. -/
def objectForger : Spy Call Res where
  answer _ e := hollowAnswer e
  move
    | 3, _ => .begin (.decrypt [65] nilOid)
    | _, _ => .step 0
  guess _ := false

theorem C98_case : chance (trialGame (fun kek => callProg hollowPrims (toyD1.withKek kek)) objectTerms objectForger 4) = 1 := by
  have h : ∀ kek, objectForger.trial (callProg hollowPrims (toyD1.withKek kek)) objectTerms 4 [] [] [] = PMF.pure true := by
    intro kek
    obtain ⟨k, hp, hk⟩ := guard_get hollowLaws (sa := hollowAccess) (d := toyD1.withKek kek) (t := [65]) (i := ⟨[65], scopeAll, [([50], ⟨[50], scopeAll⟩)]⟩)
      (scope := scopeDecrypt) rfl (by simp only [D1.authorizeAccess, D1.withKek, toyD1, unseal_hollowAccess]; rfl)
      fun a => (getSealedObject hollowPrims nilOid).bind fun so =>
        (Prog.ofExcept (so.unseal hollowPrims a.wrappedDEK (toyD1.withKek kek).objectCryptor)).bind fun o => .ret (Res.object o)
    have hp : callProg hollowPrims (toyD1.withKek kek) (.decrypt [65] nilOid) = .op _ k := by
      rw [callProg, decrypt_eq]
      simp only [Prog.bind_assoc]
      exact hp
    rw [← hollowAnswer_access hollowAccess.oid.1] at hk
    obtain ⟨k', ho, hk'⟩ := object_get hollowLaws hollowObject fun so =>
      (Prog.ofExcept (so.unseal hollowPrims (some (kwpBox hollowPrims noKey.1 noKey.1)) (toyD1.withKek kek).objectCryptor)).bind
        fun o => .ret (Res.object o)
    rw [← hollowAnswer_object hollowObject.oid.1] at hk'
    have hu : hollowObject.unseal hollowPrims (some (kwpBox hollowPrims noKey.1 noKey.1)) (toyD1.withKek kek).objectCryptor =
      .ok ⟨some [1], none⟩ := unseal_hollowObject kek.1
    rw [hu] at hk'
    have ho : k (objectForger.answer [] (.get hollowAccess.oid.1 dtAccess)) = .op (.get hollowObject.oid.1 dtObject) k' := hk.trans ho
    rw [solo_begin (x := .decrypt [65] nilOid) rfl, hp, solo_op rfl (by intro n h; exact nomatch h) (by intro D h; first | exact nomatch h | exact nomatch h.1), ho]
    have ha : ∀ v, k' (objectForger.answer v (.get hollowObject.oid.1 dtObject)) = .ret (.object ⟨some [1], none⟩) := fun _ => hk'
    rw [solo_op rfl (by intro n h; exact nomatch h) (by intro D h; first | exact nomatch h | exact nomatch h.1), ha]
    exact solo_ret rfl rfl fun f H hf => hf
  simp only [trialGame, h, PMF.bind_const, chance_true]

end D1
