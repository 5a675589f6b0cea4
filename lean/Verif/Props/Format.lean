import Verif.Proofs.Format
import Verif.Props.Fresh
import Verif.Props.NewIds
/-!
# C114: what is stored has a fixed format
-/
namespace D1
open Spec Prog

/-- C114: what is written for a value is a JSON text of it, with bytes that are not UTF-8 replaced; nothing in it ends a line or means something
in HTML. -/
theorem C114_text (j : J) : Text j.render j.san ∧ Tame j.render := ⟨text_render j, render_tame j⟩

/-- C114: a text is that of one value only. -/
theorem C114_unambiguous {t : Bytes} {a b : J} (h : Text t a) (h' : Text t b) : a = b :=
  (text_det h h' (x := []) (y := []) trivial trivial rfl).2.1

/-- C114: byte strings are written in base64 ... -/
theorem C114_base64 (url : Bool) (b : Bytes) : Base64 url (b64Enc url b) b := base64_enc url b

/-- C114: ... and such a text is that of one byte string only. -/
theorem C114_base64_unambiguous {url : Bool} {t b b' : Bytes} (h : Base64 url t b) (h' : Base64 url t b') : b = b' := base64_det h h'

/-! ## The programs -/

/-- Whatever is answered, what the program writes meets `E`, and its result meets `R`. -/
def Writes {α : Type} (E : Eff → Prop) (R : α → Prop) : Prog α → Prop
  | .ret a => R a
  | .op e k => E e ∧ ∀ r, Writes E R (k r)
  | _ => True

section
variable {α β : Type} {E : Eff → Prop} {R : α → Prop}

theorem writes_attempt {p : Prog β} {k : Except Err β → Prog α} (hp : AllEff E p) (hk : ∀ r, Writes E R (k r)) : Writes E R (p.attempt k) := by
  induction p with
  | op e c ih => exact ⟨hp.1, fun r => ih r (hp.2 r)⟩
  | ret a => exact hk _
  | err e => exact hk _
  | _ => trivial

theorem writes_bind {p : Prog β} {k : β → Prog α} (hp : AllEff E p) (hk : ∀ a, Writes E R (k a)) : Writes E R (p.bind k) := by
  rw [bind_eq_attempt]
  exact writes_attempt hp fun r => by cases r <;> first | trivial | exact hk _

theorem Writes.mapErr {p : Prog β} {e : Err} {k : β → Prog α} (h : Writes E R (p.bind k)) : Writes E R ((p.mapErr e).bind k) := by
  induction p with
  | op e c ih => exact ⟨h.1, fun r => ih r (h.2 r)⟩
  | ret a => exact h
  | _ => trivial

end

section
variable {P : Prims} (L : P.Laws) {keys : Keys} {conf : StandaloneConfig} {d : D1} {i : SecureIndex} {s : Standalone}

/-- What a request writes is well formed. -/
def GoodEff (P : Prims) (keys : Keys) (conf : StandaloneConfig) (e : Eff) : Prop := ∀ r, Written P keys conf (.eff ⟨e, r⟩)

abbrev Good (P : Prims) (keys : Keys) (conf : StandaloneConfig) (p : Prog (Option Out)) : Prop :=
  Writes (GoodEff P keys conf) (fun o => Written P keys conf (.done o)) p

theorem goodEff_quiet {e : Eff} (h : NoSend e) : GoodEff P keys conf e := by
  intro r
  cases e <;> first | trivial | cases h

theorem quiet {p : Prog α} (h : AllEff NoSend p) : AllEff (GoodEff P keys conf) p := h.mono fun _ => goodEff_quiet

theorem good_none : Good P keys conf (.ret none) := trivial

theorem good_quiet {p : Prog α} (h : AllEff NoSend p) : Good P keys conf (p.bind fun _ => .ret none) := writes_bind (quiet h) fun _ => good_none

include L in
theorem good_encrypt {c : Cryptor} {p a : J} {k : Bytes × Bytes → Prog (Option Out)}
    (hk : ∀ (key : BytesN 32) (nonce : BytesN 12), Good P keys conf (k (kwpBox P c.kwp key.1, gcmBox P key.1 nonce.1 a.render p.render))) :
    Good P keys conf ((c.encrypt P p a).bind k) := by
  rw [Cryptor.encrypt_eq L, bind_assoc]
  refine writes_bind (allEff_rand fun _ => trivial) fun key => ?_
  rw [bind_assoc]
  exact writes_bind (allEff_rand fun _ => trivial) fun nonce => hk key nonce

theorem good_put {f : IoErr → Err} {id : Bytes} {dt : DataType} {j : J} {k : Unit → Prog (Option Out)}
    (h : Document P keys conf id dt.toNat j.san) (hk : Good P keys conf (k ())) : Good P keys conf ((ioPut f id dt j.render).bind k) :=
  writes_bind (allEff_ioPut fun _ => ⟨_, text_render j, render_tame j, h⟩) fun _ => hk

theorem good_update {f : IoErr → Err} {id : Bytes} {dt : DataType} {j : J} {k : Unit → Prog (Option Out)}
    (h : Document P keys conf id dt.toNat j.san) (hk : Good P keys conf (k ())) : Good P keys conf ((ioUpdate f id dt j.render).bind k) :=
  writes_bind (allEff_ioUpdate fun _ => ⟨_, text_render j, render_tame j, h⟩) fun _ => hk

/-! ### The documents -/

theorem ascii_names : ascii "Ciphertext" = nCiphertext ∧ ascii "AssociatedData" = nAssociatedData ∧ ascii "OID" = nOID ∧ ascii "Groups" = nGroups ∧
    ascii "WrappedDEK" = nWrappedDEK ∧ ascii "WrappedKey" = nWrappedKey ∧ ascii "ExpiryTime" = nExpiryTime ∧ ascii "Identifier" = nIdentifier ∧
    ascii "NextCounter" = nNextCounter ∧ ascii "SaltAndHash" = nSaltAndHash ∧ ascii "Scopes" = nScopes ∧ ascii "UID" = nUID ∧ ascii "GID" = nGID := by
  decide

theorem type_numbers : dtObject.toNat = 0 ∧ dtAccess.toNat = 1 ∧ dtNode.toNat = 2 ∧ dtUser.toNat = 4 ∧ dtGroup.toNat = 5 := by decide

theorem data64 (b : NBytes) : Data64 (.ofBytes b) b := by
  cases b with
  | none => rfl
  | some b => exact ⟨_, base64_enc false b, rfl⟩

theorem sealed_box (key : Bytes) (nonce : BytesN 12) (a p : J) : SealedText P key a.san p.san (gcmBox P key nonce.1 a.render p.render) :=
  ⟨nonce.1, a.render, p.render, nonce.2, text_render a, text_render p, render_tame a, render_tame p, rfl⟩

include L in
theorem sealedWith_box (kek : Bytes) (key : BytesN 32) (nonce : BytesN 12) (a p : J) : SealedWith P kek a.san p.san
    (.ofBytes (some (gcmBox P key.1 nonce.1 a.render p.render))) (.ofBytes (some (kwpBox P kek key.1))) :=
  ⟨key.1, _, _, key.2, kwpWrap_box L _ _ key.2, sealed_box _ _ _ _, data64 _, data64 _⟩

theorem nameSet_san (g : GoSet) : (J.ofSet g).san = nameSet (g.map (·.map sanitize)) := by
  cases g with
  | none => rfl
  | some l =>
    simp only [J.ofSet, J.san, nameSet, Option.map_some, J.obj.injEq]
    induction l with
    | nil => rfl
    | cons x l ih => simp only [List.map_cons, JFields.ofList, JFields.san, J.san, ih]

theorem object_form (oid : Oid) (o : Object) (key : BytesN 32) (nonce : BytesN 12) : Document P keys conf oid.1 dtObject.toNat
    (SealedObject.toJ ⟨some (gcmBox P key.1 nonce.1 (objectAad oid o.associatedData).render (J.ofBytes o.plaintext).render), o.associatedData, oid⟩).san := by
  have h := sealed_box (P := P) key.1 nonce (objectAad oid o.associatedData) (.ofBytes o.plaintext)
  simp only [objectAad, san_ofBytes] at h
  have := Document.object (P := P) (keys := keys) (conf := conf) (uuidText_textOf oid) key.2 (data64 _) (data64 _) h (data64 _) (data64 o.associatedData)
  simpa [SealedObject.toJ, J.san, JFields.san, members, JFields.ofList, ascii_names, type_numbers, objectAad] using this

include L in
theorem access_form (hd : d.accessCryptor.kwp = keys.aek) (oid : Oid) (a : Access) (key : BytesN 32) (nonce : BytesN 12) :
    Document P keys conf oid.1 dtAccess.toNat (SealedAccess.toJ ⟨oid, some (gcmBox P key.1 nonce.1 (J.ofBytes (some oid.1)).render a.toJ.render),
      some (kwpBox P d.accessCryptor.kwp key.1)⟩).san := by
  rw [hd]
  have h := sealedWith_box L keys.aek key nonce (.ofBytes (some oid.1)) a.toJ
  have e : a.toJ.san = members [("Groups", nameSet (a.groups.map (·.map sanitize))), ("WrappedDEK", .ofBytes a.wrappedDEK)] := by
    simp only [Access.toJ, J.san, JFields.san, nameSet_san, san_ofBytes, san_nGroups, san_nWrappedDEK, members, List.map_cons, List.map_nil, JFields.ofList, ascii_names]
  rw [e, san_ofBytes] at h
  have := Document.access (P := P) (keys := keys) (conf := conf) (uuidText_textOf oid) (data64 _) (data64 _) h
  simpa [SealedAccess.toJ, J.san, JFields.san, members, JFields.ofList, ascii_names, type_numbers] using this

include L in
theorem node_form {kek kw : Bytes} (hk : kmacKdf P 32 keys.iek labelId [kw] = some kek) (label : Bytes) (n : Node) (key : BytesN 32) (nonce : BytesN 12) :
    Document P keys conf label dtNode.toNat (SealedNode.toJ ⟨some (gcmBox P key.1 nonce.1 (J.ofBytes (some label)).render n.toJ.render),
      some (kwpBox P kek key.1)⟩).san := by
  have h := sealedWith_box L kek key nonce (.ofBytes (some label)) n.toJ
  have e : n.toJ.san = members [("Identifier", .str (sanitize n.identifier)), ("NextCounter", .num n.nextCounter)] := by
    simp only [Node.toJ, J.san, JFields.san, san_nIdentifier, san_nNextCounter, members, List.map_cons, List.map_nil, JFields.ofList, ascii_names]
  rw [e, san_ofBytes] at h
  have := Document.node (P := P) (keys := keys) (conf := conf) hk (data64 _) h
  simpa [SealedNode.toJ, J.san, JFields.san, members, JFields.ofList, ascii_names, type_numbers] using this

include L in
theorem user_form (hu : s.userCryptor.kwp = conf.uek) (uid : GoString) (u : User) (key : BytesN 32) (nonce : BytesN 12) :
    Document P keys conf uid dtUser.toNat (SealedUser.toJ ⟨uid, some (gcmBox P key.1 nonce.1 (J.str uid).render u.toJ.render),
      some (kwpBox P s.userCryptor.kwp key.1)⟩).san := by
  rw [hu]
  have h := sealedWith_box L conf.uek key nonce (.str uid) u.toJ
  have e : u.toJ.san = members [("SaltAndHash", .ofBytes u.saltAndHash), ("Scopes", .num u.scopes.toNat), ("Groups", nameSet (u.groups.map (·.map sanitize)))] := by
    simp only [User.toJ, J.san, JFields.san, nameSet_san, san_ofBytes, san_nSaltAndHash, san_nScopes, san_nGroups, J.ofScope, members, List.map_cons, List.map_nil, JFields.ofList, ascii_names]
  rw [e] at h
  have := Document.user (P := P) (keys := keys) (conf := conf) (data64 _) h
  simpa [SealedUser.toJ, J.san, JFields.san, members, JFields.ofList, ascii_names, type_numbers] using this

include L in
theorem group_form (hg : s.groupCryptor.kwp = conf.gek) (gid : GoString) (g : Group) (key : BytesN 32) (nonce : BytesN 12) :
    Document P keys conf gid dtGroup.toNat (SealedGroup.toJ ⟨gid, some (gcmBox P key.1 nonce.1 (J.str gid).render g.toJ.render),
      some (kwpBox P s.groupCryptor.kwp key.1)⟩).san := by
  rw [hg]
  have h := sealedWith_box L conf.gek key nonce (.str gid) g.toJ
  have e : g.toJ.san = members [("Scopes", .num g.scopes.toNat)] := by
    simp only [Group.toJ, J.san, JFields.san, san_nScopes, J.ofScope, members, List.map_cons, List.map_nil, JFields.ofList, ascii_names]
  rw [e] at h
  have := Document.group (P := P) (keys := keys) (conf := conf) h
  simpa [SealedGroup.toJ, J.san, JFields.san, members, JFields.ofList, ascii_names, type_numbers] using this

include L in
theorem token_form {kek : Bytes} (x : GoTime) (p : NBytes) (key : BytesN 32) (nonce : BytesN 12) : TokenDocument P kek
    (SealedToken.toJ P ⟨x, some (gcmBox P key.1 nonce.1 (J.ofTime P x).render (J.ofBytes p).render), some (kwpBox P kek key.1)⟩).san := by
  have h := sealedWith_box L kek key nonce (.ofTime P x) (.ofBytes p)
  have e : (J.ofTime P x).san = .str (P.timeText x) := by rw [J.ofTime, J.san, sanitize_timeText L]
  rw [e, san_ofBytes] at h
  refine ⟨x, _, p, _, _, data64 _, h, ?_⟩
  simp [SealedToken.toJ, J.san, JFields.san, e, members, JFields.ofList, ascii_names]

theorem token_out {j : J} {k : Bytes} (h : TokenDocument P k j.san) (hk : k = keys.tek ∨ k = conf.tek) :
    Written P keys conf (.done (some (.token (b64Enc true j.render)))) := by
  refine ⟨_, _, base64_enc true _, text_render j, render_tame j, ?_⟩
  rcases hk with rfl | rfl
  · exact .inl h
  · exact .inr h

/-! ### The calls -/

include L in
theorem good_call (hd : d.accessCryptor.kwp = keys.aek) (hi : ∀ t, AllEff NoSend (d.idProvider t)) (c : Call) :
    Good P keys conf ((callProg P d c).bind fun _ => .ret none) := by
  cases c with
  | encrypt t o gs =>
    simp only [callProg, D1.encrypt, Prog.bind_eq, Prog.bind_assoc, sealObject_bind, sealAccess_bind, Prog.pure_eq]
    refine writes_bind (quiet (allEff_verifyAccess (hi t) _)) fun id => writes_bind (quiet (allEff_newV4 fun _ => rfl)) fun oid =>
      good_encrypt L fun k1 n1 => writes_bind (allEff_ofPanic _) fun acc => good_encrypt L fun k2 n2 => ?_
    exact good_put (object_form oid o k1 n1) (good_put (access_form L hd oid acc k2 n2) good_none)
  | update t oid o =>
    simp only [callProg, update_eq, Prog.bind_assoc, sealObject_bind, sealAccess_bind]
    refine writes_bind (quiet (noSend_guard hi t _ oid)) fun acc => good_encrypt L fun k1 n1 => good_encrypt L fun k2 n2 => ?_
    exact good_update (object_form oid o k1 n1) (good_update (access_form L hd oid _ k2 n2) good_none)
  | decrypt t oid =>
    refine good_quiet ?_
    rw [callProg, decrypt_eq]
    exact AllEff.bind (AllEff.bind (noSend_guard hi t _ oid) fun a => AllEff.bind (allEff_getSealedObject rfl) fun _ => allEff_ofExcept _) fun _ => trivial
  | delete t oid =>
    refine good_quiet ?_
    refine AllEff.bind (AllEff.bind (allEff_verifyAccess (hi t) _) fun i => AllEff.attempt (allEff_getSealedAccess rfl) fun r => ?_) fun _ => trivial
    rcases r with e | a
    · cases e <;> trivial
    · exact AllEff.bind (allEff_ofExcept _) fun _ => AllEff.bind (allEff_ioDelete rfl) fun _ => allEff_ioDelete rfl
  | getGroups t oid =>
    refine good_quiet ?_
    rw [callProg, getAccessGroups_eq]
    exact AllEff.bind (AllEff.bind (noSend_guard hi t _ oid) fun a => trivial) fun _ => trivial
  | addGroups t oid gs =>
    simp only [callProg, addGroupsToAccess_eq, Prog.bind_assoc, sealAccess_bind]
    refine writes_bind (quiet (noSend_guard hi t _ oid)) fun acc => writes_bind (allEff_ofPanic _) fun acc => good_encrypt L fun k2 n2 => ?_
    exact good_update (access_form L hd oid _ k2 n2) good_none
  | removeGroups t oid gs =>
    simp only [callProg, removeGroupsFromAccess_eq, Prog.bind_assoc, sealAccess_bind]
    refine writes_bind (quiet (noSend_guard hi t _ oid)) fun acc => good_encrypt L fun k2 n2 => ?_
    exact good_update (access_form L hd oid _ k2 n2) good_none
  | authorize t oid =>
    refine good_quiet ?_
    rw [callProg, authorizeIdentity_eq]
    exact AllEff.bind (AllEff.bind (noSend_guard hi t _ oid) fun a => trivial) fun _ => trivial

include L in
theorem good_createToken (hd : d.tokenCryptor.kwp = keys.tek) (p : NBytes) :
    Good P keys conf ((d.createToken P p).bind fun t => .ret (some (.token (t.string P)))) := by
  simp only [D1.createToken, newToken, Token.seal, Prog.bind_eq, Prog.bind_assoc, Prog.pure_eq, Prog.ret_bind]
  refine writes_bind (quiet (allEff_now rfl)) fun now => good_encrypt L fun k n => ?_
  exact token_out (token_form L _ p k n) (.inl hd)

section
variable (hix : i.indexKey = keys.iek) (hk : i.indexKey.length = 32)

include hix hk in
theorem node_kek (kw : GoString) : kmacKdf P 32 keys.iek labelId [kw] = some (ixCryptor P i kw).kwp := by
  rw [← hix, kmacKdf_eq P 32 _ _ _ (by omega) (by omega)]
  simp [ixCryptor]

include hix hk L in
theorem good_deleteLoop (kw x : GoString) (fuel : Nat) (n : Node) :
    Good P keys conf ((deleteLoop P (ixTagger P i kw) (ixCryptor P i kw) x fuel n).bind fun _ => .ret none) := by
  induction fuel generalizing n with
  | zero => trivial
  | succ fuel ih =>
    rw [deleteLoop, attempt_bind]
    refine writes_attempt (quiet (allEff_getNextNode (fun _ => rfl) _ _ _)) fun r => ?_
    rcases r with e | next
    · cases e <;> trivial
    · simp only
      split
      · simp only [Prog.bind_eq, Prog.bind_assoc]
        refine writes_bind (allEff_ofPanic _) fun label => ?_
        rw [deleteNode, attempt_bind]
        refine writes_attempt (quiet (allEff_getNextNode (fun _ => rfl) _ _ _)) fun r => ?_
        rcases r with e | nn
        · cases e <;> first | trivial | exact writes_bind (quiet (allEff_ioDelete rfl)) fun _ => ih n
        · simp only [Node.seal, Prog.bind_eq, Prog.bind_assoc, Prog.pure_eq, Prog.ret_bind]
          refine good_encrypt L fun k m => good_update (node_form L (node_kek hix hk kw) _ _ k m) ?_
          exact writes_bind (allEff_ofPanic _) fun _ => writes_bind (quiet (allEff_ioDelete rfl)) fun _ => ih n
      · exact ih next

include hix hk L in
theorem good_index (hi : ∀ t, AllEff NoSend (i.idProvider t)) (fuel : Nat) (c : IxCall) :
    Good P keys conf ((ixProg P i fuel c).bind fun _ => .ret none) := by
  cases c with
  | add t kw x =>
    simp only [ixProg, SecureIndex.add, Prog.bind_eq, Prog.bind_assoc, gtc_eq L hk, Prog.ret_bind, Node.seal, Prog.pure_eq]
    refine writes_bind (quiet (allEff_ixVerifyAccess (hi t))) fun _ => writes_bind (quiet (allEff_getLastNodeLoop (fun _ => rfl) _ _ _ _)) fun last =>
      writes_bind (allEff_ofPanic _) fun label => good_encrypt L fun k m => ?_
    exact good_put (node_form L (node_kek hix hk kw) _ _ k m) good_none
  | search t kw =>
    refine good_quiet ?_
    exact AllEff.bind (AllEff.bind (allEff_ixVerifyAccess (hi t)) fun _ => AllEff.bind (allEff_getTaggerAndCryptor kw) fun _ =>
      allEff_searchLoop (fun _ => rfl) _ _ _ _ _) fun _ => trivial
  | delete t kw x =>
    simp only [ixProg, SecureIndex.delete, Prog.bind_eq, Prog.bind_assoc, gtc_eq L hk, Prog.ret_bind]
    exact writes_bind (quiet (allEff_ixVerifyAccess (hi t))) fun _ => good_deleteLoop L hix hk kw x fuel _

end

section
variable (hu : s.userCryptor.kwp = conf.uek) (hg : s.groupCryptor.kwp = conf.gek) (ht : s.tokenCryptor.kwp = conf.tek)

include L hu in
theorem good_putUser {k : Unit → Prog (Option Out)} (uid : GoString) (u : User) (up : Bool) (hk : Good P keys conf (k ())) :
    Good P keys conf ((s.putUser P uid u up).bind k) := by
  simp only [Standalone.putUser, User.seal, Prog.bind_eq, Prog.bind_assoc, Prog.pure_eq, Prog.ret_bind]
  refine good_encrypt L fun key n => ?_
  cases up
  · exact good_put (user_form L hu uid u key n) hk
  · exact good_update (user_form L hu uid u key n) hk

include L hg in
theorem good_putGroup {k : Unit → Prog (Option Out)} (gid : GoString) (g : Group) (hk : Good P keys conf (k ())) :
    Good P keys conf ((s.putGroup P gid g).bind k) := by
  simp only [Standalone.putGroup, Group.seal, Prog.bind_eq, Prog.bind_assoc, Prog.pure_eq, Prog.ret_bind]
  exact good_encrypt L fun key n => good_put (group_form L hg gid g key n) hk

theorem good_password {k : GoString × Bytes → Prog (Option Out)} (hk : ∀ (r : BytesN 32) (sh : Bytes), Good P keys conf (k (b64Enc true r.1, sh))) :
    Good P keys conf ((generatePassword P).bind k) := by
  simp only [generatePassword, Prog.bind_eq, Prog.bind_assoc, Prog.pure_eq, Prog.ret_bind]
  exact writes_bind (quiet (allEff_rand rfl)) fun r => writes_bind (quiet (allEff_rand rfl)) fun salt => hk r _

theorem password_good (r : BytesN 32) : Good P keys conf (.ret (some (.password (b64Enc true r.1)))) := ⟨r.1, r.2, base64_enc true _⟩

include L hu hg ht in
theorem good_dir (c : DirCall) : Good P keys conf (outProg P d i s (.dir c)) := by
  cases c with
  | newUser sc =>
    simp only [outProg, Standalone.newUser, newUser, Prog.bind_eq, Prog.bind_assoc, Prog.pure_eq, Prog.ret_bind]
    refine writes_bind (quiet (allEff_newV4 fun _ => rfl)) fun uid => good_password fun r sh => ?_
    exact good_putUser L hu _ _ _ (password_good r)
  | loginUser u p =>
    simp only [outProg, Standalone.loginUser, newToken, Prog.bind_eq, Prog.bind_assoc, Prog.pure_eq, Prog.ret_bind]
    refine writes_bind (quiet (AllEff.mapErr (allEff_getUser rfl))) fun user => writes_bind (quiet (AllEff.mapErr (allEff_authenticate _ _))) fun _ =>
      writes_bind (quiet (allEff_now rfl)) fun now => Writes.mapErr ?_
    simp only [Token.seal, Prog.bind_eq, Prog.bind_assoc, Prog.pure_eq, Prog.ret_bind]
    exact good_encrypt L fun k n => token_out (token_form L _ _ k n) (.inr ht)
  | changePassword u p =>
    simp only [outProg, Standalone.changeUserPassword, Prog.bind_eq, Prog.bind_assoc, Prog.pure_eq, Prog.ret_bind]
    refine writes_bind (quiet (AllEff.mapErr (allEff_getUser rfl))) fun user => Writes.mapErr ?_
    simp only [User.changePassword, Prog.bind_eq, Prog.bind_assoc, Prog.pure_eq, Prog.ret_bind]
    refine writes_bind (quiet (allEff_authenticate _ _)) fun _ => good_password fun r sh => ?_
    exact good_putUser L hu _ _ _ (password_good r)
  | newGroup t sc =>
    simp only [outProg, dirProg, Standalone.newGroup, Prog.bind_eq, Prog.bind_assoc, Prog.pure_eq, Prog.ret_bind]
    refine writes_bind (quiet (noSend_identity t)) fun id => writes_bind (quiet (allEff_newV4 fun _ => rfl)) fun gid => good_putGroup L hg _ _ ?_
    exact writes_bind (quiet (allEff_getUser rfl)) fun _ => writes_bind (allEff_ofPanic _) fun _ => good_putUser L hu _ _ _ good_none
  | addUser t u gs =>
    simp only [outProg, dirProg, Standalone.addUserToGroups, Prog.bind_eq, Prog.bind_assoc, Prog.ret_bind]
    exact writes_bind (quiet (noSend_identity t)) fun id => writes_bind (quiet (allEff_checkMembership _ _)) fun _ =>
      writes_bind (quiet (allEff_getUser rfl)) fun _ => writes_bind (allEff_ofPanic _) fun _ => good_putUser L hu _ _ _ good_none
  | removeUser t u gs =>
    simp only [outProg, dirProg, Standalone.removeUserFromGroups, Prog.bind_eq, Prog.bind_assoc, Prog.ret_bind]
    exact writes_bind (quiet (noSend_identity t)) fun id => writes_bind (quiet (allEff_checkMembership _ _)) fun _ =>
      writes_bind (quiet (allEff_getUser rfl)) fun _ => good_putUser L hu _ _ _ good_none
  | deleteUser t u =>
    refine good_quiet ?_
    exact AllEff.bind (AllEff.bind (noSend_identity t) fun _ => allEff_ioDelete rfl) fun _ => trivial
  | getIdentity t =>
    refine good_quiet ?_
    exact AllEff.bind (noSend_identity t) fun _ => trivial

end

/-! ## C114 -/

theorem good_acts {p : Prog (Option Out)} (h : Good P keys conf p) {l : List Step} (ha : Acts p l) : ∀ st ∈ l, Written P keys conf st := by
  induction ha with
  | stop => simp
  | done o =>
    intro st hst
    rw [List.mem_singleton.mp hst]
    exact h
  | op e k r l _ ih =>
    intro st hst
    rcases List.mem_cons.mp hst with rfl | hst
    · exact h.1 r
    · exact ih (h.2 r) st hst

variable {idp idp' : IdProvider}

include L in
/-- C114: let any number of calls of the library run interleaved in any way, some cut off, against any IO Provider, random source and clock.
Everything that is sent to the IO Provider is the JSON text of a document in the format of its type: the members named there, in that order,
with the sealed contents in the format given there, bound to the identifier it is stored with.  Every token is the base64 of such a document,
and every password the base64 of 32 bytes. -/
theorem C114_documents (hd : newD1 (.ok keys) idp = .ok d) (hx : newSecureIndex (.ok keys) idp' = .ok i) (hs : newStandalone conf = .ok s)
    (hi : ∀ t, AllEff NoSend (idp t)) (hi' : ∀ t, AllEff NoSend (idp' t)) (calls : Nat → ApiCall) (tr : List (Nat × Step))
    (ha : ∀ n, Acts (outProg P d i s (calls n)) (own n tr)) : ∀ x ∈ tr, Written P keys conf x.2 := by
  have key : ∀ c, Good P keys conf (outProg P d i s c) := by
    have hd' := (C22_new (.ok keys) idp).2.2 keys rfl d hd
    rw [C22_newSecureIndex] at hx
    rw [C22_newStandalone] at hs
    split at hx <;> cases hx
    rename_i hk
    split at hs <;> cases hs
    subst hd'
    intro c
    cases c with
    | d1 c => exact good_call L rfl hi c
    | createToken p => exact good_createToken L rfl p
    | tokenContents t => exact good_quiet (p := (t.unseal P _).bind fun x => .ret x.plaintext) (AllEff.bind (allEff_tokenUnseal (Q := NoSend) rfl _ _) fun _ => trivial)
    | index fuel c => exact good_index L rfl hk hi' fuel c
    | dir c => exact good_dir L rfl rfl rfl c
  intro x hx
  refine good_acts (key _) (ha x.1) x.2 ?_
  simp only [own, List.mem_filterMap]
  exact ⟨x, hx, by simp⟩

end

/-! ## Cases -/

/-- Quotes, a line break, a tag, a byte that is not UTF-8 and an umlaut. -/
example : (J.obj (.cons [97, 34] (.str [10, 60, 98, 62, 255, 195, 164]) (.cons [98] (.num 1203) .nil))).render =
    ascii "{\"a\\\"\":\"\\n\\u003cb\\u003e\\ufffd" ++ [195, 164] ++ ascii "\",\"b\":1203}" := by decide +kernel

/-- Every character of a string is written with printable bytes. -/
theorem chars_printable {t v : Bytes} (h : Chars t v) : ∀ b ∈ t, 32 ≤ b.toNat := by
  have hex : ∀ {c : UInt8} {v : Nat}, HexDigit c v → 32 ≤ c.toNat := by
    rintro c v (h | h | h) <;> omega
  have esc : ∀ {t : Bytes} {v : Nat}, Escape t v → ∀ b ∈ t, 32 ≤ b.toNat := by
    rintro t v ⟨a, b, c, d, _, _, _, _, rfl, ha, hb, hc, hd, _⟩ x hx
    simp only [List.mem_cons, List.not_mem_nil, or_false] at hx
    rcases hx with rfl | rfl | rfl | rfl | rfl | rfl
    · decide
    · decide
    · exact hex ha
    · exact hex hb
    · exact hex hc
    · exact hex hd
  have key : ∀ {t : Bytes} {c : Nat}, Char8259 t c → ∀ b ∈ t, 32 ≤ b.toNat := by
    intro t c h
    cases h with
    | plain c h1 h2 =>
      intro b hb
      have h3 : c < 0x110000 := by rcases h1 with h | h <;> omega
      unfold utf8 at hb
      split at hb <;> (try split at hb) <;> (try split at hb) <;> simp only [List.mem_cons, List.not_mem_nil, or_false] at hb <;>
        rcases hb with rfl | rfl | rfl | rfl <;> rw [UInt8.toNat_ofNat_of_lt' (by simp [UInt8.size]; omega)] <;> omega
    | short e c h =>
      intro b hb
      simp only [List.mem_cons, List.not_mem_nil, or_false] at hb
      rcases hb with rfl | rfl
      · decide
      · simp only [shortEscapes, List.mem_cons, Prod.mk.injEq, List.not_mem_nil, or_false] at h
        rcases h with ⟨rfl, _⟩ | ⟨rfl, _⟩ | ⟨rfl, _⟩ | ⟨rfl, _⟩ | ⟨rfl, _⟩ | ⟨rfl, _⟩ | ⟨rfl, _⟩ | ⟨rfl, _⟩ <;> decide
    | hex t c h => exact esc h
    | pair t t' h l h1 h2 =>
      intro b hb
      rcases List.mem_append.mp hb with hb | hb
      · exact esc h1 b hb
      · exact esc h2 b hb
  induction h with
  | nil => simp
  | cons h1 _ ih =>
    intro b hb
    rcases List.mem_append.mp hb with hb | hb
    · exact key h1 b hb
    · exact ih b hb

/-- A raw line break in a string and a leading zero are not in the format. -/
example : (¬∃ v, Chars [10] v) ∧ ¬∃ n, Digits [48, 49] n := by
  constructor
  · rintro ⟨v, h⟩
    exact absurd (chars_printable h 10 (by simp)) (by decide)
  · rintro ⟨n, h⟩
    generalize ht : ([48, 49] : Bytes) = t at h
    cases h with
    | one d => simp at ht
    | more d h hn hd =>
      rename_i t n
      rcases t with _ | ⟨a, _ | ⟨b, t⟩⟩
      · simp at ht
      · simp only [List.cons_append, List.nil_append, List.cons.injEq] at ht
        obtain ⟨rfl, -⟩ := ht
        have := (digits_read h).2.2
        simp at this
        omega
      · simp at ht

/-- A `CreateToken` call: what it hands out is the base64 of a document under the token key, which says something. -/
example : let keys : Keys := ⟨List.replicate 32 1, List.replicate 32 2, List.replicate 32 3, List.replicate 32 4⟩
    let conf : StandaloneConfig := ⟨List.replicate 32 5, List.replicate 32 6, List.replicate 32 7⟩
    ∃ d i s, newD1 (.ok keys) (fun _ => .err .idNotAuthenticated) = .ok d ∧ newSecureIndex (.ok keys) (fun _ => .err .idNotAuthenticated) = .ok i ∧
      newStandalone conf = .ok s ∧ ∃ (calls : Nat → ApiCall) (tr : List (Nat × Step)) (x : GoString), (∀ n, Acts (outProg toyPrims d i s (calls n)) (own n tr)) ∧
        (0, Step.done (some (.token x))) ∈ tr ∧ ∃ b j, Base64 true x b ∧ Text b j ∧ (TokenDocument toyPrims keys.tek j ∨ TokenDocument toyPrims conf.tek j) := by
  intro keys conf
  refine ⟨_, _, _, rfl, rfl, rfl, ?_⟩
  generalize hd : (D1.mk _ _ _ _) = d
  generalize hi : (SecureIndex.mk _ _) = i
  generalize hs : (Standalone.mk _ _ _) = s
  obtain ⟨x, hx⟩ : ∃ x, Acts (outProg toyPrims d i s (.createToken (some [1, 2]))) [.eff ⟨.now, (⟨5, 0⟩ : GoTime)⟩,
      .eff ⟨.rand 32, (some (same 32 8) : Option (BytesN 32))⟩, .eff ⟨.rand 12, (some (same 12 9) : Option (BytesN 12))⟩, .done (some (.token x))] := by
    have e : outProg toyPrims d i s (.createToken (some [1, 2])) = timeNow.bind fun now =>
        (d.tokenCryptor.encrypt toyPrims (.ofBytes (some [1, 2])) (.ofTime toyPrims (now.add tokenValidity))).bind fun r =>
          .ret (some (.token (SealedToken.string toyPrims ⟨now.add tokenValidity, some r.2, some r.1⟩))) := by
      simp only [outProg, D1.createToken, newToken, Token.seal, Prog.bind_eq, Prog.bind_assoc, Prog.pure_eq, Prog.ret_bind]
    rw [e]
    exact ⟨_, .op _ _ _ _ (acts_encrypt toyLaws _ _ (.done _))⟩
  have ha : ∀ n, Acts (outProg toyPrims d i s ((fun _ => .createToken (some [1, 2])) n)) (own n [(0, .eff ⟨.now, (⟨5, 0⟩ : GoTime)⟩),
      (0, .eff ⟨.rand 32, (some (same 32 8) : Option (BytesN 32))⟩), (0, .eff ⟨.rand 12, (some (same 12 9) : Option (BytesN 12))⟩),
      (0, .done (some (.token x)))]) := by
    intro n
    match n with
    | 0 => exact hx
    | n + 1 => simpa [own] using Acts.stop _
  refine ⟨_, _, x, ha, by simp, ?_⟩
  obtain ⟨b, j, h1, h2, _, h3⟩ := C114_documents toyLaws (keys := keys) (conf := conf) (idp := fun _ => .err .idNotAuthenticated)
    (idp' := fun _ => .err .idNotAuthenticated) (hd ▸ rfl) (hi ▸ rfl) (hs ▸ rfl) (fun _ => trivial) (fun _ => trivial) _ _ ha
    (0, .done (some (.token x))) (by simp)
  exact ⟨b, j, h1, h2, h3⟩

end D1
