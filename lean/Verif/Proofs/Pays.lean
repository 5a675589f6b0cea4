import Verif.Props.FailStop
/-!
# What calls cost

A program is given a budget, from which it pays for every request; some answers add to the budget.
-/
namespace D1
open Spec Prog

/-- The price of a read, of a draw of random bytes, of a write, and of reading the clock. -/
structure Price where
  read : Nat
  draw : Nat
  write : Nat
  clock : Nat

def Price.of (c : Price) : Eff → Nat
  | .get .. => c.read
  | .rand _ => c.draw
  | .put .. | .update .. | .delete .. => c.write
  | .now => c.clock

/-- With budget `n` the program pays for all its requests, whatever the answers are, if an answer `ev` adds `g ev`; when it returns `a`, there is at least
`Q a` left. -/
def Pays {α : Type} (c : Price) (g : Event → Nat) : Prog α → Nat → (α → Nat) → Prop
  | .ret a, n, Q => Q a ≤ n
  | .op e k, n, Q => c.of e ≤ n ∧ ∀ r, Pays c g (k r) (n - c.of e + g ⟨e, r⟩) Q
  | _, _, _ => True

section
variable {α β : Type} {c : Price} {g : Event → Nat} {P : Prims}

theorem Pays.mono {p : Prog α} {n n' : Nat} {Q Q' : α → Nat} (h : Pays c g p n Q) (hn : n ≤ n') (hQ : ∀ a, Q' a ≤ Q a := by exact fun _ => Nat.le_refl _) :
    Pays c g p n' Q' := by
  induction p generalizing n n' with
  | ret a => exact ((hQ a).trans h).trans hn
  | op e k ih => exact ⟨h.1.trans hn, fun r => ih r (h.2 r) (by omega)⟩
  | _ => trivial

theorem Pays.attempt' {p : Prog α} {k : Except Err α → Prog β} {n m : Nat} {Q : α → Nat} {R : β → Nat} (hp : Pays c g p n Q)
    (hk : ∀ a, Pays c g (k (.ok a)) (Q a + m) R) (he : ∀ e, Pays c g (k (.error e)) m R) : Pays c g (p.attempt k) (n + m) R := by
  induction p generalizing n with
  | ret a => exact (hk a).mono (Nat.add_le_add_right hp m)
  | err e => exact (he e).mono (Nat.le_add_left m n)
  | op e' k' ih => exact ⟨Nat.le_add_right_of_le hp.1, fun r => (ih r (hp.2 r)).mono (by have := hp.1; omega)⟩
  | _ => trivial

theorem Pays.attempt {p : Prog α} {k : Except Err α → Prog β} {n m : Nat} {R : β → Nat} (hp : Pays c g p n fun _ => 0)
    (hk : ∀ a, Pays c g (k (.ok a)) m R) (he : ∀ e, Pays c g (k (.error e)) m R) : Pays c g (p.attempt k) (n + m) R :=
  .attempt' hp (fun a => (hk a).mono (by omega)) he

theorem Pays.with {p : Prog α} {k : α → Prog β} {n m : Nat} {Q : α → Nat} {R : β → Nat} (hp : Pays c g p n Q)
    (hk : ∀ a, Pays c g (k a) (Q a + m) R) : Pays c g (p.bind k) (n + m) R := by
  induction p generalizing n with
  | ret a => exact (hk a).mono (Nat.add_le_add_right hp m)
  | op e' k' ih => exact ⟨Nat.le_add_right_of_le hp.1, fun r => (ih r (hp.2 r)).mono (by have := hp.1; omega)⟩
  | _ => trivial

theorem Pays.bind {p : Prog α} {k : α → Prog β} {n m : Nat} {R : β → Nat} (hp : Pays c g p n fun _ => 0) (hk : ∀ a, Pays c g (k a) m R) :
    Pays c g (p.bind k) (n + m) R :=
  .with hp fun a => (hk a).mono (by omega)

theorem Pays.ret (a : α) : Pays c g (.ret a) 0 fun _ => 0 := Nat.le_refl 0
theorem Pays.err (e : Err) {Q : α → Nat} : Pays c g (.err e) 0 Q := trivial

theorem Pays.mapErr {p : Prog α} {n : Nat} (hp : Pays c g p n fun _ => 0) (e : Err) : Pays c g (p.mapErr e) n fun _ => 0 :=
  .attempt (m := 0) hp (fun a => .ret a) fun _ => .err _

theorem Pays.ofExcept (x : Except Err α) : Pays c g (Prog.ofExcept x) 0 fun _ => 0 := by
  cases x
  · trivial
  · exact .ret _

theorem Pays.ofPanic (x : Option α) : Pays c g (Prog.ofPanic x) 0 fun _ => 0 := by
  cases x
  · trivial
  · exact .ret _

theorem Pays.rand (n : Nat) : Pays c g (randBytes n) c.draw fun _ => 0 :=
  ⟨Nat.le_refl _, fun r => by cases r <;> first | trivial | exact Nat.zero_le _⟩

theorem Pays.now : Pays c g timeNow c.clock fun _ => 0 := ⟨Nat.le_refl _, fun _ => Nat.zero_le _⟩

theorem Pays.ioGet {f : IoErr → Err} (id : Bytes) (dt : DataType) : Pays c g (ioGet f id dt) c.read fun _ => 0 :=
  ⟨Nat.le_refl _, fun r => by cases r <;> first | trivial | exact Nat.zero_le _⟩

theorem Pays.ioPut {f : IoErr → Err} (id : Bytes) (dt : DataType) (b : Bytes) : Pays c g (ioPut f id dt b) c.write fun _ => 0 :=
  ⟨Nat.le_refl _, fun r => by cases r <;> first | trivial | exact Nat.zero_le _⟩

theorem Pays.ioUpdate {f : IoErr → Err} (id : Bytes) (dt : DataType) (b : Bytes) : Pays c g (ioUpdate f id dt b) c.write fun _ => 0 :=
  ⟨Nat.le_refl _, fun r => by cases r <;> first | trivial | exact Nat.zero_le _⟩

theorem Pays.ioDelete {f : IoErr → Err} (id : Bytes) (dt : DataType) : Pays c g (ioDelete f id dt) c.write fun _ => 0 :=
  ⟨Nat.le_refl _, fun r => by cases r <;> first | trivial | exact Nat.zero_le _⟩

theorem Pays.newV4 : Pays c g newV4 c.draw fun _ => 0 := .bind (m := 0) (.rand _) fun _ => .ret _

theorem Pays.gcmEncrypt (p a k : Bytes) : Pays c g (gcmEncrypt P p a k) c.draw fun _ => 0 := by
  unfold D1.gcmEncrypt
  split
  · trivial
  · exact .bind (m := 0) (.rand _) fun _ => .ret _

theorem Pays.encrypt (x : Cryptor) (p a : J) : Pays c g (x.encrypt P p a) (2 * c.draw) fun _ => 0 :=
  (Pays.bind (.rand _) fun _ => .bind (.gcmEncrypt _ _ _) fun _ => .bind (.ofExcept _) fun _ => .ret _).mono (by omega)

/-! ## Standalone -/

variable {s : Standalone}

/-- The number of groups in the user record that was read. -/
def groupsRead (P : Prims) (s : Standalone) : Event → Nat
  | ⟨.get _ dt, .ok b⟩ => if dt = dtUser then
      match (P.unmarshal b).bind SealedUser.ofJ with
      | some u => match u.unseal P s.userCryptor with
        | .ok u => (u.groups.getD []).length
        | .error _ => 0
      | none => 0
    else 0
  | _ => 0

theorem Pays.getUser (uid : GoString) : Pays c g (s.getUser P uid) c.read fun _ => 0 :=
  .bind (m := 0) (.ioGet _ _) fun b => by
    cases (P.unmarshal b).bind SealedUser.ofJ with
    | none => trivial
    | some _ => exact .ofExcept _

theorem Pays.getUser' (hg : ∀ ev, c.read * groupsRead P s ev ≤ g ev) (uid : GoString) :
    Pays c g (s.getUser P uid) c.read fun u => c.read * (u.groups.getD []).length := by
  refine ⟨Nat.le_refl _, fun r => ?_⟩
  cases r with
  | error e => trivial
  | ok b =>
    have := hg ⟨.get uid dtUser, .ok b⟩
    simp only [groupsRead, if_true] at this
    simp only [Except.casesOn, Prog.bind]
    cases hu : (P.unmarshal b).bind SealedUser.ofJ with
    | none => trivial
    | some u =>
      rw [hu] at this
      simp only at this ⊢
      cases hs : u.unseal P s.userCryptor with
      | error e => trivial
      | ok v =>
        rw [hs] at this
        exact this.trans (Nat.le_add_left _ _)

theorem Pays.getGroup (gid : GoString) : Pays c g (s.getGroup P gid) c.read fun _ => 0 :=
  .bind (m := 0) (.ioGet _ _) fun b => by
    cases (P.unmarshal b).bind SealedGroup.ofJ with
    | none => trivial
    | some _ => exact .ofExcept _

theorem Pays.putUser (uid : GoString) (u : User) (up : Bool) : Pays c g (s.putUser P uid u up) (2 * c.draw + c.write) fun _ => 0 :=
  .bind (.bind (m := 0) (.encrypt _ _ _) fun _ => .ret _) fun _ => by
    cases up
    · exact .ioPut _ _ _
    · exact .ioUpdate _ _ _

theorem Pays.putGroup (gid : GoString) (x : Group) : Pays c g (s.putGroup P gid x) (2 * c.draw + c.write) fun _ => 0 :=
  .bind (.bind (m := 0) (.encrypt _ _ _) fun _ => .ret _) fun _ => .ioPut _ _ _

theorem Pays.fetchGroups (gs : List GoString) : Pays c g (s.fetchGroups P gs) (c.read * gs.length) fun _ => 0 := by
  induction gs with
  | nil => exact .ret _
  | cons x r ih => exact (Pays.bind (.getGroup x) fun _ => .bind ih fun _ => .ret _).mono (by rw [List.length_cons, Nat.mul_succ]; omega)

theorem Pays.tokenUnseal (t : SealedToken) (x : Cryptor) : Pays c g (t.unseal P x) c.clock fun _ => 0 :=
  .bind (m := 0) .now fun now => by
    split
    · trivial
    · exact .bind (m := 0) (.ofExcept _) fun _ => .ret _

theorem Pays.getIdentity (hg : ∀ ev, c.read * groupsRead P s ev ≤ g ev) (t : GoString) : Pays c g (s.getIdentity P t) (c.clock + c.read) fun _ => 0 := by
  unfold Standalone.getIdentity
  split
  · trivial
  · refine Pays.attempt (.tokenUnseal _ _) (fun _ => Pays.with (m := 0) (.getUser' hg _) fun u => ?_) fun _ => trivial
    exact .bind (m := 0) (.fetchGroups _) fun _ => .ret _

theorem Pays.generatePassword : Pays c g (generatePassword P) (2 * c.draw) fun _ => 0 :=
  (Pays.bind (.rand _) fun _ => .bind (.rand _) fun _ => .ret _).mono (by omega)

theorem Pays.authenticate (u : User) (p : GoString) : Pays c g (u.authenticate P p) 0 fun _ => 0 :=
  .bind (m := 0) (.ofPanic _) fun ok => by
    cases ok
    · trivial
    · exact .ret _

theorem Pays.checkMembership (y : Identity) (gs : List GoString) : Pays c g (checkMembership y gs) 0 fun _ => 0 := by
  unfold D1.checkMembership
  split
  · exact .ret _
  · trivial

/-- What a call of Standalone costs, but for reading the groups of its caller. -/
def dirCost (c : Price) : DirCall → Nat
  | .newUser _ => 5 * c.draw + c.write
  | .loginUser .. => c.read + c.clock + 2 * c.draw
  | .changePassword .. => c.read + 4 * c.draw + c.write
  | .newGroup .. => c.clock + 2 * c.read + 5 * c.draw + 2 * c.write
  | .addUser .. | .removeUser .. => c.clock + 2 * c.read + 2 * c.draw + c.write
  | .deleteUser .. => c.clock + c.read + c.write
  | .getIdentity _ => c.clock + c.read

theorem pays_dirProg (hg : ∀ ev, c.read * groupsRead P s ev ≤ g ev) (x : DirCall) : Pays c g (dirProg P s x) (dirCost c x) fun _ => 0 := by
  cases x with
  | newUser sc =>
    exact (Pays.bind (.bind .newV4 fun _ => .bind (.bind .generatePassword fun _ => (.ret _)) fun _ => .bind (.putUser _ _ _) fun _ => (.ret _))
      fun _ => (.ret _)).mono (by simp only [dirCost]; omega)
  | loginUser u p =>
    exact (Pays.bind (.bind (.mapErr (.getUser _) _) fun _ => .bind (.mapErr (.authenticate _ _) _) fun _ => .bind (.bind .now fun _ => (.ret _)) fun _ =>
      .bind (.mapErr (.bind (.encrypt _ _ _) fun _ => (.ret _)) _) fun _ => (.ret _)) fun _ => (.ret _)).mono (by simp only [dirCost]; omega)
  | changePassword u p =>
    exact (Pays.bind (.bind (.mapErr (.getUser _) _) fun _ => .bind (.mapErr (.bind (.authenticate _ _) fun _ => .bind .generatePassword fun _ =>
      (.ret _)) _) fun _ => .bind (.putUser _ _ _) fun _ => (.ret _)) fun _ => (.ret _)).mono (by simp only [dirCost]; omega)
  | newGroup t sc =>
    exact (Pays.bind (.bind (.getIdentity hg _) fun _ => .bind .newV4 fun _ => .bind (.putGroup _ _) fun _ => .bind (.getUser _) fun _ =>
      .bind (.ofPanic _) fun _ => .bind (.putUser _ _ _) fun _ => (.ret _)) fun _ => (.ret _)).mono (by simp only [dirCost]; omega)
  | addUser t u gs =>
    exact (Pays.bind (.bind (.getIdentity hg _) fun _ => .bind (.checkMembership _ _) fun _ => .bind (.getUser _) fun _ => .bind (.ofPanic _) fun _ =>
      .putUser _ _ _) fun _ => (.ret _)).mono (by simp only [dirCost]; omega)
  | removeUser t u gs =>
    exact (Pays.bind (.bind (.getIdentity hg _) fun _ => .bind (.checkMembership _ _) fun _ => .bind (.getUser _) fun _ => .putUser _ _ _)
      fun _ => (.ret _)).mono (by simp only [dirCost]; omega)
  | deleteUser t u => exact (Pays.bind (.bind (.getIdentity hg _) fun _ => .ioDelete _ _) fun _ => (.ret _)).mono (by simp only [dirCost]; omega)
  | getIdentity t => exact (Pays.bind (.getIdentity hg _) fun _ => (.ret _)).mono (by simp only [dirCost]; omega)

/-! ## Objects -/

variable {d : D1} {m : Nat}

theorem Pays.verifyAccess (hd : ∀ t, Pays c g (d.idProvider t) m fun _ => 0) (t : GoString) (sc : Scope) : Pays c g (d.verifyAccess t sc) m fun _ => 0 :=
  .attempt (m := 0) (hd t) (fun y => by
    simp only
    split
    · trivial
    · exact .ret _) fun _ => .err _

theorem Pays.getSealedAccess (oid : Oid) : Pays c g (getSealedAccess P oid) c.read fun _ => 0 :=
  .bind (m := 0) (.ioGet _ _) fun b => by
    cases (P.unmarshal b).bind (SealedAccess.ofJ P)
    · trivial
    · exact .ret _

theorem Pays.getSealedObject (oid : Oid) : Pays c g (getSealedObject P oid) c.read fun _ => 0 :=
  .bind (m := 0) (.ioGet _ _) fun b => by
    cases (P.unmarshal b).bind (SealedObject.ofJ P)
    · trivial
    · exact .ret _

theorem Pays.putSealedAccess (a : SealedAccess) (up : Bool) : Pays c g (putSealedAccess a up) c.write fun _ => 0 := by
  cases up
  · exact .ioPut _ _ _
  · exact .ioUpdate _ _ _

theorem Pays.putSealedObject (a : SealedObject) (up : Bool) : Pays c g (putSealedObject a up) c.write fun _ => 0 := by
  cases up
  · exact .ioPut _ _ _
  · exact .ioUpdate _ _ _

theorem Pays.objectSeal (o : Object) (oid : Oid) (x : Cryptor) : Pays c g (o.seal P oid x) (2 * c.draw) fun _ => 0 :=
  .bind (m := 0) (.encrypt _ _ _) fun _ => .ret _
theorem Pays.accessSeal (a : Access) (oid : Oid) (x : Cryptor) : Pays c g (a.seal P oid x) (2 * c.draw) fun _ => 0 :=
  .bind (m := 0) (.encrypt _ _ _) fun _ => .ret _

/-- What a call of D1 costs, but for what the Identity Provider does. -/
def callCost (c : Price) : Call → Nat
  | .encrypt .. => 5 * c.draw + 2 * c.write
  | .update .. => c.read + 4 * c.draw + 2 * c.write
  | .decrypt .. => 2 * c.read
  | .delete .. => c.read + 2 * c.write
  | .getGroups .. | .authorize .. => c.read
  | .addGroups .. | .removeGroups .. => c.read + 2 * c.draw + c.write

theorem pays_callProg (hd : ∀ t, Pays c g (d.idProvider t) m fun _ => 0) (x : Call) : Pays c g (callProg P d x) (m + callCost c x) fun _ => 0 := by
  cases x with
  | encrypt t o gs =>
    exact (Pays.bind (.bind (.verifyAccess hd _ _) fun _ => .bind .newV4 fun _ => .bind (.objectSeal _ _ _) fun _ => .bind (.ofPanic _) fun _ =>
      .bind (.accessSeal _ _ _) fun _ => .bind (.putSealedObject _ _) fun _ => .bind (.putSealedAccess _ _) fun _ => .ret _) fun _ => .ret _).mono
      (by simp only [callCost]; omega)
  | update t oid o =>
    exact (Pays.bind (.bind (.verifyAccess hd _ _) fun _ => .bind (.getSealedAccess _) fun _ => .bind (.ofExcept _) fun _ => .bind (.objectSeal _ _ _) fun _ =>
      .bind (.accessSeal _ _ _) fun _ => .bind (.putSealedObject _ _) fun _ => .putSealedAccess _ _) fun _ => .ret _).mono
      (by simp only [callCost]; omega)
  | decrypt t oid =>
    exact (Pays.bind (.bind (.verifyAccess hd _ _) fun _ => .bind (.getSealedAccess _) fun _ => .bind (.ofExcept _) fun _ => .bind (.getSealedObject _) fun _ =>
      .ofExcept _) fun _ => .ret _).mono (by simp only [callCost]; omega)
  | delete t oid =>
    refine (Pays.bind (.bind (.verifyAccess hd _ _) fun _ => .attempt (m := 2 * c.write) (.getSealedAccess _) (fun _ => ?_) fun e => ?_) fun _ => .ret _).mono
      (by simp only [callCost]; omega)
    · exact (Pays.bind (.ofExcept _) fun _ => .bind (.ioDelete _ _) fun _ => .ioDelete _ _).mono (by omega)
    · cases e <;> first | trivial | exact Nat.zero_le _
  | getGroups t oid =>
    exact (Pays.bind (.bind (.verifyAccess hd _ _) fun _ => .bind (.getSealedAccess _) fun _ => .bind (.ofExcept _) fun _ => .ret _) fun _ => .ret _).mono
      (by simp only [callCost]; omega)
  | addGroups t oid gs =>
    exact (Pays.bind (.bind (.verifyAccess hd _ _) fun _ => .bind (.getSealedAccess _) fun _ => .bind (.ofExcept _) fun _ => .bind (.ofPanic _) fun _ =>
      .bind (.accessSeal _ _ _) fun _ => .putSealedAccess _ _) fun _ => .ret _).mono (by simp only [callCost]; omega)
  | removeGroups t oid gs =>
    exact (Pays.bind (.bind (.verifyAccess hd _ _) fun _ => .bind (.getSealedAccess _) fun _ => .bind (.ofExcept _) fun _ =>
      .bind (.accessSeal _ _ _) fun _ => .putSealedAccess _ _) fun _ => .ret _).mono (by simp only [callCost]; omega)
  | authorize t oid =>
    exact (Pays.bind (.bind (.verifyAccess hd _ _) fun _ => .bind (.getSealedAccess _) fun _ => .bind (.ofExcept _) fun _ => .ret _) fun _ => .ret _).mono
      (by simp only [callCost]; omega)

/-! ## The index -/

variable {i : SecureIndex}

theorem Pays.ixVerify (hi : ∀ t, Pays c g (i.idProvider t) m fun _ => 0) (t : GoString) : Pays c g (i.verifyAccess t) m fun _ => 0 :=
  .attempt (m := 0) (hi t) (fun y => by
    simp only
    split
    · trivial
    · exact .ret _) fun _ => .err _

theorem Pays.tagger (kw : GoString) : Pays c g (i.getTaggerAndCryptor P kw) 0 fun _ => 0 :=
  .bind (n := 0) (m := 0) (.ofPanic _) fun _ => .bind (n := 0) (m := 0) (.ofPanic _) fun _ => .bind (n := 0) (m := 0) (.ofExcept _) fun _ =>
    .bind (n := 0) (m := 0) (.ofExcept _) fun _ => .ret _

theorem Pays.getNextNode (n : Node) (tg : Tagger) (x : Cryptor) : Pays c g (getNextNode P n tg x) c.read fun _ => 0 :=
  (Pays.bind (.ofPanic _) fun _ => .bind (.bind (m := 0) (.ioGet _ _) fun b => by
    cases (P.unmarshal b).bind SealedNode.ofJ
    · trivial
    · exact .ret _) fun _ => .ofExcept _).mono (by omega)

theorem Pays.getLastNodeLoop (tg : Tagger) (x : Cryptor) (fuel : Nat) (n : Node) : Pays c g (getLastNodeLoop P tg x fuel n) (fuel * c.read) fun _ => 0 := by
  induction fuel generalizing n with
  | zero => trivial
  | succ f ih =>
    refine (Pays.attempt (m := f * c.read) (.getNextNode _ _ _) (fun a => ih a) fun e => ?_).mono (by rw [Nat.succ_mul f]; omega)
    cases e <;> first | trivial | exact Nat.zero_le _

theorem Pays.searchLoop (tg : Tagger) (x : Cryptor) (fuel : Nat) (n : Node) (l : List GoString) :
    Pays c g (searchLoop P tg x fuel n l) (fuel * c.read) fun _ => 0 := by
  induction fuel generalizing n l with
  | zero => trivial
  | succ f ih =>
    refine (Pays.attempt (m := f * c.read) (.getNextNode _ _ _) (fun a => ih a _) fun e => ?_).mono (by rw [Nat.succ_mul f]; omega)
    cases e <;> first | trivial | exact Nat.zero_le _

theorem Pays.nodeSeal (n : Node) (l : Bytes) (x : Cryptor) : Pays c g (n.seal P l x) (2 * c.draw) fun _ => 0 :=
  .bind (m := 0) (.encrypt _ _ _) fun _ => .ret _

theorem Pays.putSealedNode (l : Bytes) (n : SealedNode) (up : Bool) : Pays c g (putSealedNode l n up) c.write fun _ => 0 := by
  cases up
  · exact .ioPut _ _ _
  · exact .ioUpdate _ _ _

theorem Pays.deleteNode (l : Bytes) (n : Node) (tg : Tagger) (x : Cryptor) :
    Pays c g (deleteNode P l n tg x) (c.read + 2 * c.draw + 2 * c.write) fun _ => 0 := by
  refine (Pays.attempt (m := 2 * c.draw + 2 * c.write) (.getNextNode _ _ _) (fun a => ?_) fun e => ?_).mono (by omega)
  · exact (Pays.bind (.nodeSeal _ _ _) fun _ => .bind (.putSealedNode _ _ _) fun _ => .bind (.ofPanic _) fun _ => .ioDelete _ _).mono (by omega)
  · cases e <;> first | trivial | exact (Pays.ioDelete _ _).mono (by omega)

theorem Pays.deleteLoop (tg : Tagger) (x : Cryptor) (id : GoString) (fuel : Nat) (n : Node) :
    Pays c g (deleteLoop P tg x id fuel n) (fuel * (2 * c.read + 2 * c.draw + 2 * c.write)) fun _ => 0 := by
  induction fuel generalizing n with
  | zero => trivial
  | succ f ih =>
    refine (Pays.attempt (m := c.read + 2 * c.draw + 2 * c.write + f * (2 * c.read + 2 * c.draw + 2 * c.write)) (.getNextNode _ _ _) (fun a => ?_)
      fun e => ?_).mono (by rw [Nat.succ_mul f]; omega)
    · simp only
      split
      · exact (Pays.bind (.ofPanic _) fun _ => .bind (.deleteNode _ _ _ _) fun _ => ih _).mono (by omega)
      · exact (ih _).mono (by omega)
    · cases e <;> first | trivial | exact Nat.zero_le _

/-- What a call of the index costs that looks at no more than `n` nodes (`Delete`: that goes round its loop no more than `n` times), but for what the
Identity Provider does. -/
def ixCost (c : Price) (n : Nat) : IxCall → Nat
  | .add .. => n * c.read + 2 * c.draw + c.write
  | .search .. => n * c.read
  | .delete .. => n * (2 * c.read + 2 * c.draw + 2 * c.write)

theorem pays_ixProg (hi : ∀ t, Pays c g (i.idProvider t) m fun _ => 0) (fuel : Nat) (x : IxCall) :
    Pays c g (ixProg P i fuel x) (m + ixCost c fuel x) fun _ => 0 := by
  cases x with
  | add t kw x =>
    exact (Pays.bind (.bind (.ixVerify hi _) fun _ => .bind (.tagger _) fun _ => .bind (.getLastNodeLoop _ _ _ _) fun _ => .bind (.ofPanic _) fun _ =>
      .bind (.nodeSeal _ _ _) fun _ => .putSealedNode _ _ _) fun _ => .ret _).mono (by simp only [ixCost]; omega)
  | search t kw =>
    exact (Pays.bind (.bind (.ixVerify hi _) fun _ => .bind (.tagger _) fun _ => .searchLoop _ _ _ _ _) fun _ => .ret _).mono (by simp only [ixCost]; omega)
  | delete t kw x =>
    exact (Pays.bind (.bind (.ixVerify hi _) fun _ => .bind (.tagger _) fun _ => .deleteLoop _ _ _ _ _) fun _ => .ret _).mono (by simp only [ixCost]; omega)

end
end D1
