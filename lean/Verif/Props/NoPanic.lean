import Verif.Props.EndToEnd
import Verif.Props.Replay
import Verif.Props.Story
import Verif.Proofs.Safe
/-!
# No call panics: C63

The places where the code can panic: writing to a nil map (`AddGroups` of an access or a user), slicing a stored password record that is
shorter than the salt, and KMAC with a short key or tag.  D1 and index calls do not panic whatever the provider answers.  Standalone calls
do not panic on any history that started without user records.
-/
namespace D1
open Spec Prog

/-- The program does not panic, whatever the answers to its effects. -/
def Calm {α : Type} (p : Prog α) : Prop := AllOut (fun o => o ≠ .panic) p

section
variable {α β : Type}

theorem calm_ret (a : α) : Calm (.ret a) := by simp [Calm, AllOut]
theorem calm_err (e : Err) : Calm (.err e : Prog α) := by simp [Calm, AllOut]
theorem calm_diverge : Calm (.diverge : Prog α) := by simp [Calm, AllOut]

theorem Calm.bind {p : Prog α} {k : α → Prog β} (hp : Calm p) (hk : ∀ a, Calm (k a)) : Calm (p.bind k) :=
  AllOut.bind hp (fun a _ => hk a) (fun _ _ => by simp) (fun h => absurd rfl h) (fun _ => by simp)

/-- The same where what follows depends on how the first part can end. -/
theorem calm_bind_of {R : Outcome α → Prop} {p : Prog α} {k : α → Prog β} (hp : AllOut R p) (hn : ¬ R .panic) (hk : ∀ a, R (.ok a) → Calm (k a)) :
    Calm (p.bind k) :=
  AllOut.bind hp hk (fun _ _ => by simp) (fun h => absurd h hn) (fun _ => by simp)

theorem Calm.attempt {p : Prog α} {k : Except Err α → Prog β} (hp : Calm p) (hk : ∀ r, Calm (k r)) : Calm (p.attempt k) :=
  AllOut.attempt hp (fun a _ => hk _) (fun _ _ => hk _) (fun h => absurd rfl h) (fun _ => by simp)

theorem calm_ofExcept (x : Except Err α) : Calm (Prog.ofExcept x) := by cases x <;> simp [Calm, AllOut, Prog.ofExcept]

theorem calm_ofPanic {x : Option α} (h : x ≠ none) : Calm (ofPanic x) := by
  cases x with
  | none => exact absurd rfl h
  | some a => simp [Calm, AllOut, ofPanic]

theorem calm_rand (n : Nat) : Calm (randBytes n) := fun r => by cases r <;> simp [AllOut]
theorem calm_now : Calm timeNow := fun _ => by simp [AllOut]
theorem calm_ioGet (f : IoErr → Err) (id : Bytes) (dt : DataType) : Calm (ioGet f id dt) := fun r => by cases r <;> simp [AllOut]
theorem calm_ioPut (f : IoErr → Err) (id : Bytes) (dt : DataType) (b : Bytes) : Calm (ioPut f id dt b) := fun r => by cases r <;> simp [AllOut]
theorem calm_ioUpdate (f : IoErr → Err) (id : Bytes) (dt : DataType) (b : Bytes) : Calm (ioUpdate f id dt b) :=
  fun r => by cases r <;> simp [AllOut]
theorem calm_ioDelete (f : IoErr → Err) (id : Bytes) (dt : DataType) : Calm (ioDelete f id dt) := fun r => by cases r <;> simp [AllOut]

end

section
variable {P : Prims}

theorem calm_gcmEncrypt (p a k : Bytes) : Calm (gcmEncrypt P p a k) := by
  unfold gcmEncrypt
  split
  · exact calm_err _
  · exact (calm_rand _).bind fun _ => calm_ret _

theorem calm_encrypt (c : Cryptor) (p a : J) : Calm (c.encrypt P p a) :=
  (calm_rand _).bind fun _ => (calm_gcmEncrypt _ _ _).bind fun _ => (calm_ofExcept _).bind fun _ => calm_ret _

theorem calm_newV4 : Calm newV4 := (calm_rand _).bind fun _ => calm_ret _

/-! ## d1.go -/

variable {d : D1} (hd : ∀ token, Calm (d.idProvider token))

include hd in
theorem calm_verifyAccess (t : GoString) (s : Scope) : Calm (d.verifyAccess t s) := by
  refine (hd t).attempt fun r => ?_
  cases r with
  | error e => exact calm_err _
  | ok i =>
    simp only
    split
    · exact calm_err _
    · exact calm_ret _

theorem calm_getSealedAccess (oid : Oid) : Calm (getSealedAccess P oid) :=
  (calm_ioGet _ _ _).bind fun b => by
    split
    · exact calm_err _
    · exact calm_ret _

theorem calm_getSealedObject (oid : Oid) : Calm (getSealedObject P oid) :=
  (calm_ioGet _ _ _).bind fun b => by
    split
    · exact calm_err _
    · exact calm_ret _

theorem calm_putSealedAccess (a : SealedAccess) (u : Bool) : Calm (putSealedAccess a u) := by
  cases u
  · exact calm_ioPut _ _ _ _
  · exact calm_ioUpdate _ _ _ _

theorem calm_putSealedObject (a : SealedObject) (u : Bool) : Calm (putSealedObject a u) := by
  cases u
  · exact calm_ioPut _ _ _ _
  · exact calm_ioUpdate _ _ _ _

theorem calm_sealAccess (a : Access) (oid : Oid) (c : Cryptor) : Calm (a.seal P oid c) := (calm_encrypt _ _ _).bind fun _ => calm_ret _

theorem calm_sealObject (o : Object) (oid : Oid) (c : Cryptor) : Calm (o.seal P oid c) := (calm_encrypt _ _ _).bind fun _ => calm_ret _

/-- An access that let somebody through has a map of groups. -/
theorem groups_of_authorized {i : Identity} {s : Scope} {a : SealedAccess} {x : Access} (h : d.authorizeAccess P i s a = .ok x) :
    ∃ l, x.groups = some l := by
  rw [D1.authorizeAccess] at h
  split at h
  · cases h
  · next y hy =>
    split at h
    · next hany =>
      cases h
      rw [List.any_eq_true] at hany
      obtain ⟨g, -, hg⟩ := hany
      simp only [Access.containsGroups, Bool.and_eq_true] at hg
      cases hx : x.groups with
      | none => rw [hx] at hg; simp [GoSet.has] at hg
      | some l => exact ⟨l, rfl⟩
    · cases h

include hd in
/-- The guard ends with an access that has a map of groups. -/
theorem calm_guard (t : GoString) (s : Scope) (oid : Oid) :
    AllOut (fun o => match o with | .ok x => ∃ l, x.groups = some l | .panic => False | _ => True) (guardProg P d t s oid) := by
  refine AllOut.bind (calm_verifyAccess hd t s) (fun i _ => ?_) (fun _ _ => trivial) (fun h => h rfl) (fun _ => trivial)
  refine AllOut.bind (calm_getSealedAccess oid) (fun a _ => ?_) (fun _ _ => trivial) (fun h => h rfl) (fun _ => trivial)
  cases h : d.authorizeAccess P i s a with
  | error e => trivial
  | ok x => exact groups_of_authorized h

include hd in
theorem calm_after_guard {β : Type} (t : GoString) (s : Scope) (oid : Oid) {k : Access → Prog β} (hk : ∀ x l, x.groups = some l → Calm (k x)) :
    Calm ((guardProg P d t s oid).bind k) :=
  calm_bind_of (calm_guard hd t s oid) (fun h => h) fun x ⟨l, hl⟩ => hk x l hl

include hd in
/-- C63: no D1 call panics, whatever the IO Provider, the random source and the clock answer. -/
theorem C63_d1_calm (c : Call) : Calm (callProg P d c) := by
  cases c with
  | encrypt t o gs =>
    refine Calm.bind ((calm_verifyAccess hd t _).bind fun i => calm_newV4.bind fun oid => (calm_sealObject _ _ _).bind fun r => ?_)
      fun _ => calm_ret _
    refine Calm.bind (calm_ofPanic ?_) fun a => (calm_sealAccess _ _ _).bind fun sa => (calm_putSealedObject _ _).bind fun _ =>
      (calm_putSealedAccess _ _).bind fun _ => calm_ret _
    simp [Access.addGroups, newAccess, addToSet_some]
  | decrypt t oid =>
    rw [callProg, decrypt_eq, Prog.bind_assoc]
    exact calm_after_guard hd t _ oid fun x l hl => Calm.bind ((calm_getSealedObject _).bind fun _ => calm_ofExcept _) fun _ => calm_ret _
  | update t oid o =>
    rw [callProg, update_eq, Prog.bind_assoc]
    refine calm_after_guard hd t _ oid fun x l hl => Calm.bind ?_ fun _ => calm_ret _
    exact (calm_sealObject _ _ _).bind fun r => (calm_sealAccess _ _ _).bind fun sa => (calm_putSealedObject _ _).bind fun _ =>
      calm_putSealedAccess _ _
  | delete t oid =>
    refine Calm.bind ((calm_verifyAccess hd t _).bind fun i => (calm_getSealedAccess oid).attempt fun r => ?_) fun _ => calm_ret _
    cases r with
    | error e => cases e <;> first | exact calm_ret _ | exact calm_err _
    | ok a => exact (calm_ofExcept _).bind fun _ => Calm.bind (calm_ioDelete _ _ _) fun _ => calm_ioDelete _ _ _
  | getGroups t oid =>
    rw [callProg, getAccessGroups_eq, Prog.bind_assoc]
    exact calm_after_guard hd t _ oid fun x l hl => calm_ret _
  | addGroups t oid gs =>
    rw [callProg, addGroupsToAccess_eq, Prog.bind_assoc]
    refine calm_after_guard hd t _ oid fun x l hl => Calm.bind ?_ fun _ => calm_ret _
    refine Calm.bind (calm_ofPanic ?_) fun a => (calm_sealAccess _ _ _).bind fun sa => calm_putSealedAccess _ _
    simp [Access.addGroups, hl, addToSet_some]
  | removeGroups t oid gs =>
    rw [callProg, removeGroupsFromAccess_eq, Prog.bind_assoc]
    refine calm_after_guard hd t _ oid fun x l hl => Calm.bind ?_ fun _ => calm_ret _
    exact (calm_sealAccess _ _ _).bind fun sa => calm_putSealedAccess _ _
  | authorize t oid =>
    rw [callProg, authorizeIdentity_eq, Prog.bind_assoc]
    exact calm_after_guard hd t _ oid fun x l hl => calm_ret _

theorem calm_tokenUnseal (t : SealedToken) (c : Cryptor) : Calm (t.unseal P c) := by
  refine calm_now.bind fun now => ?_
  split
  · exact calm_err _
  · exact (calm_ofExcept _).bind fun _ => calm_ret _

theorem calm_tokenSeal (t : Token) (c : Cryptor) : Calm (t.seal P c) := (calm_encrypt _ _ _).bind fun _ => calm_ret _

/-- C63: the token calls do not panic. -/
theorem C63_token_calm (contents : NBytes) (t : SealedToken) : Calm (d.createToken P contents) ∧ Calm (d.getTokenContents P t) :=
  ⟨Calm.bind (calm_now.bind fun _ => calm_ret _) fun _ => calm_tokenSeal _ _, (calm_tokenUnseal _ _).bind fun _ => calm_ret _⟩

/-! ## index/index.go -/

theorem kmac_some (key : Bytes) (n : Nat) (c : Bytes) (hk : 32 ≤ key.length) (hn : 8 ≤ n) : newKMAC256 key n c ≠ none := by
  rw [newKMAC256, if_neg (by omega), newKMAC, if_neg (by simp only [kmacMinimumTagSize]; omega)]
  simp

theorem nextLabel_some (n : Node) (t : Tagger) (ht : t.key.length = 32) : n.nextLabel P t ≠ none := by
  simp only [Node.nextLabel, Tagger.tag, ne_eq, Option.map_eq_none_iff]
  exact kmac_some _ _ _ (by omega) (by decide)

theorem calm_getNextNode (n : Node) (t : Tagger) (ht : t.key.length = 32) (c : Cryptor) : Calm (getNextNode P n t c) := by
  refine (calm_ofPanic (nextLabel_some n t ht)).bind fun l => Calm.bind ?_ fun _ => calm_ofExcept _
  exact (calm_ioGet _ _ _).bind fun b => by
    split
    · exact calm_err _
    · exact calm_ret _

theorem calm_nodeSeal (n : Node) (l : Bytes) (c : Cryptor) : Calm (n.seal P l c) := (calm_encrypt _ _ _).bind fun _ => calm_ret _

theorem calm_putSealedNode (l : Bytes) (n : SealedNode) (u : Bool) : Calm (putSealedNode l n u) := by
  cases u
  · exact calm_ioPut _ _ _ _
  · exact calm_ioUpdate _ _ _ _

theorem calm_getLastNodeLoop (t : Tagger) (ht : t.key.length = 32) (c : Cryptor) (fuel : Nat) (n : Node) : Calm (getLastNodeLoop P t c fuel n) := by
  induction fuel generalizing n with
  | zero => exact calm_diverge
  | succ f ih =>
    refine (calm_getNextNode n t ht c).attempt fun r => ?_
    cases r with
    | ok m => exact ih m
    | error e => cases e <;> first | exact calm_ret _ | exact calm_err _

theorem calm_searchLoop (t : Tagger) (ht : t.key.length = 32) (c : Cryptor) (fuel : Nat) (n : Node) (l : List GoString) :
    Calm (searchLoop P t c fuel n l) := by
  induction fuel generalizing n l with
  | zero => exact calm_diverge
  | succ f ih =>
    refine (calm_getNextNode n t ht c).attempt fun r => ?_
    cases r with
    | ok m => exact ih m _
    | error e => cases e <;> first | exact calm_ret _ | exact calm_err _

theorem calm_deleteNode (l : Bytes) (n : Node) (t : Tagger) (ht : t.key.length = 32) (c : Cryptor) : Calm (deleteNode P l n t c) := by
  refine (calm_getNextNode n t ht c).attempt fun r => ?_
  cases r with
  | ok m => exact (calm_nodeSeal _ _ _).bind fun _ => (calm_putSealedNode _ _ _).bind fun _ =>
      (calm_ofPanic (nextLabel_some n t ht)).bind fun _ => calm_ioDelete _ _ _
  | error e => cases e <;> first | exact calm_ioDelete _ _ _ | exact calm_err _

theorem calm_deleteLoop (t : Tagger) (ht : t.key.length = 32) (c : Cryptor) (x : GoString) (fuel : Nat) (n : Node) :
    Calm (deleteLoop P t c x fuel n) := by
  induction fuel generalizing n with
  | zero => exact calm_diverge
  | succ f ih =>
    refine (calm_getNextNode n t ht c).attempt fun r => ?_
    cases r with
    | ok m =>
      simp only
      split
      · exact (calm_ofPanic (nextLabel_some n t ht)).bind fun _ => (calm_deleteNode _ _ t ht c).bind fun _ => ih n
      · exact ih m
    | error e => cases e <;> first | exact calm_ret _ | exact calm_err _

variable {i : SecureIndex} (hi : ∀ token, Calm (i.idProvider token)) (hk : i.indexKey.length = 32)

include hi in
theorem calm_ixVerify (t : GoString) : Calm (i.verifyAccess t) := by
  refine (hi t).attempt fun r => ?_
  cases r with
  | error e => exact calm_err _
  | ok i =>
    simp only
    split
    · exact calm_err _
    · exact calm_ret _

include hk in
theorem calm_tagger {β : Type} (kw : GoString) {k : Tagger × Cryptor → Prog β} (h : ∀ r : Tagger × Cryptor, r.1.key.length = 32 → Calm (k r)) :
    Calm ((i.getTaggerAndCryptor P kw).bind k) := by
  rw [SecureIndex.getTaggerAndCryptor]
  simp only [Prog.bind_eq, Prog.bind_assoc]
  refine (calm_ofPanic ?_).bind fun k1 => (calm_ofPanic ?_).bind fun k2 => ?_
  · simp only [kmacKdf, ne_eq, Option.map_eq_none_iff]; exact kmac_some _ _ _ (by omega) (by decide)
  · simp only [kmacKdf, ne_eq, Option.map_eq_none_iff]; exact kmac_some _ _ _ (by omega) (by decide)
  · rw [newKMAC256Tagger]
    split
    · exact calm_err _
    · next hl =>
      show Calm ((Prog.ofExcept (newAESCryptor k2)).bind fun c => k (⟨k1⟩, c))
      exact (calm_ofExcept _).bind fun c => h _ (by simpa [taggerKeyLength] using hl)

include hi hk in
/-- C63: no index call panics, whatever the IO Provider and the random source answer. -/
theorem C63_index_calm (fuel : Nat) (c : IxCall) : Calm (ixProg P i fuel c) := by
  cases c with
  | add t kw x =>
    refine Calm.bind ((calm_ixVerify hi t).bind fun _ => calm_tagger hk kw fun r hr => ?_) fun _ => calm_ret _
    exact (calm_getLastNodeLoop r.1 hr r.2 fuel zeroNode).bind fun last => (calm_ofPanic (nextLabel_some last _ hr)).bind fun l =>
      (calm_nodeSeal _ _ _).bind fun _ => calm_putSealedNode _ _ _
  | search t kw =>
    exact Calm.bind ((calm_ixVerify hi t).bind fun _ => calm_tagger hk kw fun r hr => calm_searchLoop r.1 hr r.2 fuel zeroNode [])
      fun _ => calm_ret _
  | delete t kw x =>
    exact Calm.bind ((calm_ixVerify hi t).bind fun _ => calm_tagger hk kw fun r hr => calm_deleteLoop r.1 hr r.2 x fuel zeroNode)
      fun _ => calm_ret _

/-! ## id/standalone.go -/

theorem calm_getGroup {s : Standalone} (gid : GoString) : Calm (s.getGroup P gid) :=
  (calm_ioGet _ _ _).bind fun b => by
    split
    · exact calm_err _
    · exact calm_ofExcept _

theorem calm_getUser {s : Standalone} (uid : GoString) : Calm (s.getUser P uid) :=
  (calm_ioGet _ _ _).bind fun b => by
    split
    · exact calm_err _
    · exact calm_ofExcept _

theorem calm_fetchGroups {s : Standalone} (l : List GoString) : Calm (s.fetchGroups P l) := by
  induction l with
  | nil => exact calm_ret _
  | cons g l ih => exact (calm_getGroup g).bind fun _ => ih.bind fun _ => calm_ret _

/-- C63: `GetIdentity` of the Standalone provider does not panic, whatever the IO Provider answers. -/
theorem C63_getIdentity_calm {s : Standalone} (t : GoString) : Calm (s.getIdentity P t) := by
  unfold Standalone.getIdentity
  split
  · exact calm_err _
  · refine (calm_tokenUnseal _ _).attempt fun r => ?_
    cases r with
    | error e => exact calm_err _
    | ok t => exact (calm_getUser _).bind fun u => (calm_fetchGroups _).bind fun _ => calm_ret _

end

/-- A user record as the code makes them: a salt and a map of groups. -/
def Sane (u : User) : Prop := ∃ h l, u.saltAndHash = some h ∧ 8 ≤ h.length ∧ u.groups = some l

/-- Every user record ever written is the sealing of such a user. -/
def GenuineUsers (P : Prims) (s : Standalone) (h : Hist) : Prop :=
  ∀ uid b, h uid dtUser b → sanitize uid = uid ∧ ∃ u k n, Sane u ∧ b = (sealedUser P s uid u k n).toJ.render

section
variable {P : Prims} (L : P.Laws) {s : Standalone}

/-- Effects on other data types keep the user records. -/
theorem genuine_frame {e : Eff} (he : ∀ x, e.target ≠ some (x, dtUser)) {h h' : Hist} {r : e.Resp} (hg : GenuineUsers P s h)
    (hs : ReplayStep h e r h') : GenuineUsers P s h' := by
  have hadd : ∀ id dt b, (∀ x, (id, dt) ≠ (x, dtUser)) → GenuineUsers P s (h.add id dt b) := by
    intro id dt b hne uid b' hb
    rcases hb with hb | ⟨rfl, rfl, rfl⟩
    · exact hg uid b' hb
    · exact absurd rfl (hne uid)
  cases e with
  | put id dt b => rw [show h' = h.add id dt b from hs]; exact hadd _ _ _ fun x hx => he x (by rw [Eff.target, hx])
  | update id dt b => rw [show h' = h.add id dt b from hs]; exact hadd _ _ _ fun x hx => he x (by rw [Eff.target, hx])
  | get id dt => rw [show h' = h from hs.1]; exact hg
  | delete id dt => rw [show h' = h from hs]; exact hg
  | rand n => rw [show h' = h from hs]; exact hg
  | now => rw [show h' = h from hs]; exact hg

/-- Programs that do not write user records. -/
theorem safe_calm {α : Type} {p : Prog α} (he : AllEff (fun e => ∀ x, e.target ≠ some (x, dtUser)) p) (hc : Calm p) :
    Safe ReplayStep (GenuineUsers P s) (fun o => o ≠ .panic) p :=
  safe_frame (fun _ hq _ _ _ h hst => genuine_frame hq h hst) he hc

include L in
theorem safe_getUser (uid : GoString) : Safe ReplayStep (GenuineUsers P s)
    (fun o => match o with | .ok u => Sane u ∧ sanitize uid = uid | .panic => False | _ => True) (s.getUser P uid) := by
  rw [Standalone.getUser, Prog.bind_eq, ioGet, op_bind]
  intro h r h' hg hst
  obtain ⟨rfl, hr⟩ := hst
  refine ⟨hg, ?_⟩
  cases r with
  | error e => trivial
  | ok b =>
    obtain ⟨h1, u, k, n, ⟨hs, l, h2, h3, h4⟩, rfl⟩ := hg uid b (hr b rfl)
    simp only [ret_bind, L.unmarshal_render, Option.bind_some, SealedUser.ofJ_toJ]
    simp only [sealedUser, h1, SealedUser.unseal, NBytes.bytes, Option.getD_some]
    rw [Cryptor.decrypt_box L]
    simp only [User.ofJ_toJ]
    exact ⟨⟨hs, sanList l, h2, h3, by simp [h4]⟩, trivial⟩

include L in
theorem safe_putUser {uid : GoString} (hu : sanitize uid = uid) {u : User} (hs : Sane u) (up : Bool) :
    Safe ReplayStep (GenuineUsers P s) (fun o => o ≠ .panic) (s.putUser P uid u up) := by
  have hw : ∀ (k : BytesN 32) (n : BytesN 12) h, GenuineUsers P s h →
      GenuineUsers P s (h.add uid dtUser (sealedUser P s uid u k n).toJ.render) := by
    intro k n h hg uid' b hb
    rcases hb with hb | ⟨rfl, -, rfl⟩
    · exact hg uid' b hb
    · exact ⟨hu, u, k, n, hs, rfl⟩
  have henc : (s.putUser P uid u up) = (s.userCryptor.encrypt P u.toJ (.str uid)).bind fun r =>
      if up then ioUpdate (onNotFound .userNotFound) uid dtUser (SealedUser.toJ ⟨uid, some r.2, some r.1⟩).render
      else ioPut (onAlreadyExists .userAlreadyExists) uid dtUser (SealedUser.toJ ⟨uid, some r.2, some r.1⟩).render := by
    rw [Standalone.putUser, User.seal]
    simp only [Prog.bind_eq, Prog.bind_assoc]
    rfl
  rw [henc, Cryptor.encrypt_eq L]
  rw [Prog.bind_assoc, randBytes, op_bind]
  intro h r h' hg hst
  obtain rfl : h' = h := hst
  refine ⟨hg, ?_⟩
  cases r with
  | none => simp [Safe]
  | some k =>
    simp only [ret_bind]
    rw [Prog.bind_assoc, randBytes, op_bind]
    intro h r h' hg hst
    obtain rfl : h' = h := hst
    refine ⟨hg, ?_⟩
    cases r with
    | none => simp [Safe]
    | some n =>
      simp only [ret_bind]
      cases up
      · intro h r h' hg hst
        rw [show h' = h.add uid dtUser _ from hst]
        exact ⟨hw k n h hg, by cases r <;> simp [Safe]⟩
      · intro h r h' hg hst
        rw [show h' = h.add uid dtUser _ from hst]
        exact ⟨hw k n h hg, by cases r <;> simp [Safe]⟩

theorem safe_identity (t : GoString) : Safe ReplayStep (GenuineUsers P s) (fun o => o ≠ .panic) (s.getIdentity P t) :=
  safe_calm (allEff_getIdentity (by simp [Eff.target]) (by simp [Eff.target]) (by simp [Eff.target]) t) (C63_getIdentity_calm t)

theorem Safe.calm {α β : Type} {I : Hist → Prop} {p : Prog α} {k : α → Prog β} (hp : Safe ReplayStep I (fun o => o ≠ .panic) p)
    (hk : ∀ a, Safe ReplayStep I (fun o => o ≠ .panic) (k a)) : Safe ReplayStep I (fun o => o ≠ .panic) (p.bind k) :=
  hp.bind (fun a _ => hk a) (fun _ _ => by simp) (fun h => absurd rfl h) (fun _ => by simp)

include L in
theorem safe_after_getUser {β : Type} (uid : GoString) {k : User → Prog β}
    (hk : ∀ u, Sane u → sanitize uid = uid → Safe ReplayStep (GenuineUsers P s) (fun o => o ≠ .panic) (k u)) :
    Safe ReplayStep (GenuineUsers P s) (fun o => o ≠ .panic) ((s.getUser P uid).bind k) :=
  (safe_getUser L uid).bind (fun u h => hk u h.1 h.2) (fun _ _ => by simp) (fun h => h.elim) (fun _ => by simp)

include L in
theorem safe_after_getUser' {β : Type} (uid : GoString) (e : Err) {k : User → Prog β}
    (hk : ∀ u, Sane u → sanitize uid = uid → Safe ReplayStep (GenuineUsers P s) (fun o => o ≠ .panic) (k u)) :
    Safe ReplayStep (GenuineUsers P s) (fun o => o ≠ .panic) (((s.getUser P uid).mapErr e).bind k) := by
  refine Safe.bind (R := fun o => match o with | .ok u => Sane u ∧ sanitize uid = uid | .panic => False | _ => True) ?_
    (fun u h => hk u h.1 h.2) (fun _ _ => by simp) (fun h => h.elim) (fun _ => by simp)
  exact (safe_getUser L uid).attempt (fun u h => h) (fun _ _ => trivial) (fun h => h) (fun _ => trivial)

theorem compare_some {u : User} (h : Sane u) (p : GoString) : comparePassword P p u.saltAndHash.bytes ≠ none := by
  obtain ⟨hs, l, h1, h2, -⟩ := h
  rw [comparePassword, if_neg (by simp only [h1, NBytes.bytes, Option.getD_some, saltLength]; omega)]
  simp

theorem calm_authenticate {u : User} (h : Sane u) (p : GoString) : Calm (u.authenticate P p) := by
  refine (calm_ofPanic (compare_some h p)).bind fun ok => ?_
  split
  · exact calm_err _
  · exact calm_ret _

theorem calm_mapErr {α : Type} {p : Prog α} (h : Calm p) (e : Err) : Calm (p.mapErr e) :=
  h.attempt fun r => by cases r <;> first | exact calm_err _ | exact calm_ret _

theorem addGroups_sane {u : User} (h : Sane u) (gs : List GoString) : ∃ u', u.addGroups gs = some u' ∧ Sane u' := by
  obtain ⟨hs, l, h1, h2, h3⟩ := h
  simp only [User.addGroups, h3, addToSet_some, Option.map_some]
  exact ⟨_, rfl, hs, _, h1, h2, rfl⟩

theorem removeGroups_sane {u : User} (h : Sane u) (gs : List GoString) : Sane (u.removeGroups gs) := by
  obtain ⟨hs, l, h1, h2, h3⟩ := h
  exact ⟨hs, gs.foldl setErase l, h1, h2, by simp [User.removeGroups, removeFromSet, h3]⟩

/-- A generated password record has a salt. -/
theorem returns_generatePassword : AllOut (fun o => match o with | .ok r => 8 ≤ r.2.length | .panic => False | _ => True) (generatePassword P) := by
  refine AllOut.bind (calm_rand passwordLength) (fun p _ => ?_) (fun _ _ => trivial) (fun h => h rfl) (fun _ => trivial)
  refine AllOut.bind (calm_rand saltLength) (fun salt _ => ?_) (fun _ _ => trivial) (fun h => h rfl) (fun _ => trivial)
  show 8 ≤ (salt.1 ++ _).length
  rw [List.length_append, salt.2]
  exact Nat.le_add_right _ _

theorem safe_after_password {β : Type} {k : GoString × Bytes → Prog β}
    (hk : ∀ r, 8 ≤ r.2.length → Safe ReplayStep (GenuineUsers P s) (fun o => o ≠ .panic) (k r)) :
    Safe ReplayStep (GenuineUsers P s) (fun o => o ≠ .panic) ((generatePassword P).bind k) :=
  (safe_frame (Q := fun e => ∀ x, e.target ≠ some (x, dtUser)) (fun _ hq _ _ _ h hst => genuine_frame hq h hst)
    (allEff_generatePassword (by simp [Eff.target])) returns_generatePassword).bind (fun r h => hk r h) (fun _ _ => by simp)
    (fun h => h.elim) (fun _ => by simp)

include L in
/-- Standalone calls keep user records genuine and do not panic on them. -/
theorem safe_dir (c : DirCall) : Safe ReplayStep (GenuineUsers P s) (fun o => o ≠ .panic) (dirProg P s c) := by
  have pure : ∀ {α : Type} (a : α), Safe ReplayStep (GenuineUsers P s) (fun o => o ≠ .panic) (.ret a : Prog α) := fun a => by simp [Safe]
  have member : ∀ i gs, Safe ReplayStep (GenuineUsers P s) (fun o => o ≠ .panic) (checkMembership i gs) := fun i gs =>
    safe_calm (allEff_checkMembership i gs) (by rw [checkMembership]; split <;> [exact calm_ret _; exact calm_err _])
  cases c with
  | newUser sc =>
    refine Safe.calm ?_ fun _ => pure _
    rw [Standalone.newUser, Prog.bind_eq]
    refine (safe_calm (allEff_newV4 (by simp [Eff.target])) calm_newV4).calm fun oid => ?_
    simp only [D1.newUser, Prog.bind_eq, Prog.bind_assoc]
    refine safe_after_password fun r hr => ?_
    exact (safe_putUser L (sanitize_uuidText _) ⟨r.2, [], rfl, hr, rfl⟩ false).calm fun _ => pure _
  | loginUser uid pw =>
    refine Safe.calm ?_ fun _ => pure _
    refine safe_after_getUser' L uid _ fun u hu _ => ?_
    refine safe_calm ?_ ?_
    · exact AllEff.bind (allEff_authenticate u pw).mapErr fun _ => AllEff.bind (AllEff.bind (allEff_now (by simp [Eff.target])) fun _ => trivial)
        fun t => AllEff.bind (AllEff.mapErr (AllEff.bind (allEff_encrypt (by simp [Eff.target]) _ _ _) fun _ => trivial)) fun _ => trivial
    · exact (calm_mapErr (calm_authenticate hu pw) _).bind fun _ => Calm.bind (calm_now.bind fun _ => calm_ret _) fun t =>
        (calm_mapErr (calm_tokenSeal _ _) _).bind fun _ => calm_ret _
  | changePassword uid pw =>
    refine Safe.calm ?_ fun _ => pure _
    refine safe_after_getUser' L uid _ fun u hu hs => ?_
    obtain ⟨hsh, l, h1, h2, h3⟩ := hu
    have hc : Safe ReplayStep (GenuineUsers P s) (fun o => match o with | .ok r => Sane r.1 | .panic => False | _ => True)
        (u.changePassword P pw) := by
      refine safe_frame (Q := fun e => ∀ x, e.target ≠ some (x, dtUser)) (fun _ hq _ _ _ h hst => genuine_frame hq h hst)
        (AllEff.bind (allEff_authenticate u pw) fun _ => AllEff.bind (allEff_generatePassword (by simp [Eff.target])) fun _ => trivial) ?_
      refine AllOut.bind (calm_authenticate ⟨hsh, l, h1, h2, h3⟩ pw) (fun _ _ => ?_) (fun _ _ => trivial) (fun h => h rfl) (fun _ => trivial)
      refine AllOut.bind returns_generatePassword (fun r hr => ?_) (fun _ _ => trivial) (fun h => h) (fun _ => trivial)
      exact ⟨r.2, l, rfl, hr, h3⟩
    refine Safe.bind (R := fun o => match o with | .ok r => Sane r.1 | .panic => False | _ => True) ?_ (fun r hr => ?_)
      (fun _ _ => by simp) (fun h => h.elim) (fun _ => by simp)
    · exact hc.attempt (fun u h => h) (fun _ _ => trivial) (fun h => h) (fun _ => trivial)
    · exact (safe_putUser L hs hr true).calm fun _ => pure _
  | newGroup t sc =>
    refine Safe.calm ?_ fun _ => pure _
    refine (safe_identity t).calm fun i => ?_
    refine (safe_calm (allEff_newV4 (by simp [Eff.target])) calm_newV4).calm fun gid => ?_
    refine (safe_calm (allEff_putGroup (by simp [Eff.target]) (by simp [Eff.target, dtUser, dtGroup, dtEnd])) ?_).calm fun _ => ?_
    · exact Calm.bind ((calm_encrypt _ _ _).bind fun _ => calm_ret _) fun _ => calm_ioPut _ _ _ _
    refine safe_after_getUser L _ fun u hu hs => ?_
    obtain ⟨u', h1, h2⟩ := addGroups_sane hu [uuidText gid]
    simp only [h1]
    exact (safe_putUser L hs h2 true).calm fun _ => pure _
  | addUser t uid gs =>
    refine Safe.calm ?_ fun _ => pure _
    refine (safe_identity t).calm fun i => (member i gs).calm fun _ => safe_after_getUser L uid fun u hu hs => ?_
    obtain ⟨u', h1, h2⟩ := addGroups_sane hu gs
    simp only [h1]
    exact safe_putUser L hs h2 true
  | removeUser t uid gs =>
    refine Safe.calm ?_ fun _ => pure _
    exact (safe_identity t).calm fun i => (member i gs).calm fun _ => safe_after_getUser L uid fun u hu hs =>
      safe_putUser L hs (removeGroups_sane hu gs) true
  | deleteUser t uid =>
    refine Safe.calm ?_ fun _ => pure _
    refine (safe_identity t).calm fun i => ?_
    intro h r h' hg hst
    obtain rfl : h' = h := hst
    exact ⟨hg, by cases r <;> simp [Safe]⟩
  | getIdentity t => exact (safe_identity t).calm fun _ => pure _

end

/-! ## The whole API -/

/-- A call of the library: D1, tokens, the index (with any bound on its loops), the Standalone provider. -/
inductive ApiCall where
  | d1 (c : Call)
  | createToken (contents : NBytes)
  | tokenContents (t : SealedToken)
  | index (fuel : Nat) (c : IxCall)
  | dir (c : DirCall)

/-- Its program; results are forgotten. -/
def apiProg (P : Prims) (d : D1) (i : SecureIndex) (s : Standalone) : ApiCall → Prog Unit
  | .d1 c => (callProg P d c).bind fun _ => .ret ()
  | .createToken p => (d.createToken P p).bind fun _ => .ret ()
  | .tokenContents t => (d.getTokenContents P t).bind fun _ => .ret ()
  | .index fuel c => (ixProg P i fuel c).bind fun _ => .ret ()
  | .dir c => (dirProg P s c).bind fun _ => .ret ()

/-- An Identity Provider that does not panic and does not write user records, such as Standalone itself (`quiet_standalone`). -/
def Quiet (idp : IdProvider) : Prop := ∀ token, Calm (idp token) ∧ AllEff (fun e => ∀ x, e.target ≠ some (x, dtUser)) (idp token)

theorem quiet_standalone (P : Prims) (s : Standalone) : Quiet (s.getIdentity P) := fun t =>
  ⟨C63_getIdentity_calm t, allEff_getIdentity (by simp [Eff.target]) (by simp [Eff.target]) (by simp [Eff.target]) t⟩

section
variable {P : Prims} (L : P.Laws) {d : D1} {i : SecureIndex} {s : Standalone}

include L in
theorem safe_api (hd : Quiet d.idProvider) (hi : Quiet i.idProvider) (hk : i.indexKey.length = 32) (c : ApiCall) :
    Safe ReplayStep (GenuineUsers P s) (fun o => o ≠ .panic) (apiProg P d i s c) := by
  have pure : Safe ReplayStep (GenuineUsers P s) (fun o => o ≠ .panic) (.ret () : Prog Unit) := by simp [Safe]
  have hr : ∀ n, (fun e : Eff => ∀ x, e.target ≠ some (x, dtUser)) (.rand n) := by simp [Eff.target]
  have hdt : ∀ (e : Eff) dt, dt ≠ dtUser → e.dataType = some dt → ∀ x, e.target ≠ some (x, dtUser) := by
    intro e dt hne h x
    cases e <;> simp only [Eff.dataType, Eff.target, Option.some.injEq, ne_eq, Prod.mk.injEq, reduceCtorEq, not_false_iff] at h ⊢ <;>
      (rintro ⟨-, h2⟩; exact hne (h.symm.trans h2))
  cases c with
  | d1 c =>
    refine (safe_calm ?_ (C63_d1_calm (fun t => (hd t).1) c)).calm fun _ => pure
    exact allEff_call c (hd _).2 hr fun e dt h1 h2 h3 => hdt e dt (by rcases h2 with rfl | rfl <;> decide) h1
  | createToken p =>
    refine (safe_calm ?_ (C63_token_calm (d := d) p ⟨zeroTime, none, none⟩).1).calm fun _ => pure
    exact AllEff.bind (AllEff.bind (allEff_now (by simp [Eff.target])) fun _ => trivial) fun _ => AllEff.bind (allEff_encrypt hr _ _ _) fun _ => trivial
  | tokenContents t =>
    refine (safe_calm ?_ (C63_token_calm (d := d) none t).2).calm fun _ => pure
    exact AllEff.bind (allEff_tokenUnseal (by simp [Eff.target]) _ _) fun _ => trivial
  | index fuel c =>
    refine (safe_calm ?_ (C63_index_calm (fun t => (hi t).1) hk fuel c)).calm fun _ => pure
    have hn : ∀ e : Eff, e.dataType = some dtNode → ∀ x, e.target ≠ some (x, dtUser) := fun e => hdt e dtNode (by decide)
    cases c with
    | add t kw x => exact AllEff.bind (allEff_add (hi _).2 hr hn _ _ _) fun _ => trivial
    | search t kw => exact AllEff.bind (allEff_search (hi _).2 (fun _ => hn _ rfl) _ _) fun _ => trivial
    | delete t kw x => exact AllEff.bind (allEff_delete (hi _).2 hr hn _ _ _) fun _ => trivial
  | dir c => exact (safe_dir L c).calm fun _ => pure

include L in
/-- C63: any calls of the whole library run concurrently against an IO Provider that fails, crashes, loses writes and replays old records as
it likes.  At the start it may hold anything except user records.  No call panics. -/
theorem C63_no_panic (hd : Quiet d.idProvider) (hi : Quiet i.idProvider) {keys : Except Err Keys} {idp : IdProvider}
    (hk : newSecureIndex keys idp = .ok i) {h h' : Hist} (h0 : ∀ uid b, ¬ h uid dtUser b) (calls : List ApiCall)
    {cs : List (Nat × Outcome Unit)} {ps : List (Prog Unit)} (hr : Runs ReplayStep h (calls.map (apiProg P d i s)) cs h' ps) :
    (∀ j, (j, .panic) ∉ cs) ∧ ∀ p ∈ ps, p.outcome ≠ some .panic := by
  have hlen : i.indexKey.length = 32 := by
    cases keys with
    | error e => cases hk
    | ok keys =>
      rw [newSecureIndex] at hk
      split at hk
      · cases hk
      · next hl =>
        cases hk
        simpa [masterKeyLength] using hl
  obtain ⟨-, h2, h3⟩ := Safe.runs (I := GenuineUsers P s) (R := fun _ o => o ≠ .panic) hr (fun uid b hb => absurd hb (h0 uid b)) fun j p hp => by
    rw [List.getElem?_map, Option.map_eq_some_iff] at hp
    obtain ⟨c, -, rfl⟩ := hp
    exact safe_api L hd hi hlen c
  refine ⟨fun j hj => h2 j _ hj rfl, fun p hp ho => ?_⟩
  obtain ⟨j, hj⟩ := List.getElem?_of_mem hp
  exact (h3 j p hj).outcome ho rfl

include L in
/-- C63: the same for calls that share a store, with any faults, crashes and interleaving. -/
theorem C63_no_panic_store (hd : Quiet d.idProvider) (hi : Quiet i.idProvider) {keys : Except Err Keys} {idp : IdProvider}
    (hk : newSecureIndex keys idp = .ok i) (env : Env) {w : World} (h0 : ∀ uid, w.store uid dtUser = none) (calls : List ApiCall) (sch : List Nat) :
    (∀ j, (j, .panic) ∉ commits env sch w (calls.map (apiProg P d i s))) ∧
      ∀ p ∈ (sched env sch w (calls.map (apiProg P d i s))).2, p.outcome ≠ some .panic := by
  obtain ⟨h', h1, -⟩ := (sched_runs (fun w e => anyStep env w e) sch w (calls.map (apiProg P d i s))).simulate
    (R := fun (st : Store) (h : Hist) => ∀ (id : Bytes) (dt : DataType) (b : Bytes), st id dt = some b → h id dt b) (step' := ReplayStep)
    (fun st h e r st' hR hs => anyStep_replay st h e r st' hR hs) (b := histOf w.store) (hb := fun _ _ _ h => h)
  exact C63_no_panic L hd hi hk (fun uid b hb => by rw [histOf, h0] at hb; cases hb) calls h1

end

/-- A concrete case: a user signs up and an object is stored, interleaved, with every third effect failing after it took place. -/
example : let env : Env := { toyEnv with fault := fun t => if t % 3 = 2 then .after else .none }
    let ps := [ApiCall.dir (.newUser [scopeAll]), .d1 (.encrypt [7] ⟨some [1], none⟩ [[8]]), .index 9 (.add [1] [107] [97])].map
      (apiProg toyPrims toyD1 toyIndex toyStandalone)
    ∀ j, (j, .panic) ∉ commits env [0, 1, 2, 0, 1, 2, 0, 1, 2, 0, 1, 2] ⟨fun _ _ => none, 0⟩ ps := by
  refine (C63_no_panic_store toyLaws ?_ ?_ (keys := .ok ⟨[], [], [], toyIndex.indexKey⟩) (idp := toyIndex.idProvider) ?_ _ (fun _ => rfl) _ _).1
  · intro t
    simp only [toyD1]
    split
    · exact ⟨calm_err _, trivial⟩
    · exact ⟨calm_ret _, trivial⟩
  · intro t
    simp only [toyIndex]
    split
    · exact ⟨calm_err _, trivial⟩
    · exact ⟨calm_ret _, trivial⟩
  · rfl

end D1
