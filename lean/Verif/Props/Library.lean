import Verif.Spec.Library
import Verif.Props.EndToEnd
import Verif.Props.Stack
/-!
# C88: the whole library as one machine
-/
namespace D1
open Spec Prog

/-! ## Running calls -/

section
variable (P : Prims) (d : D1) (i : SecureIndex) (s : Standalone) (fuel : Nat) (env : Env)

/-- The program of a call.  For `GetTokenContents` callers are not told which error it is. -/
def libProg : LibCall → Prog LibRes
  | .dir (.loginUser u p) => (s.loginUser P u p).bind fun r => .ret (.session r.1 r.2)
  | .dir c => (dirProg P s c).bind fun r => .ret (.dir r)
  | .d1 c => (callProg P d c).bind fun r => .ret (.d1 r)
  | .index c => (ixProg P i fuel c).bind fun r => .ret (.index r)
  | .createToken p => (d.createToken P p).bind fun t => .ret (.token t)
  | .tokenContents t => ((d.getTokenContents P t).mapErr .tokenExpired).bind fun b => .ret (.contents b)

/-- What a caller is told. -/
def Outcome.told {α : Type} : Outcome α → Except Err α
  | .ok a => .ok a
  | .err e => .error e
  | _ => .error .tokenExpired

/-- A client on top of the library. -/
def clientProg {α : Type} : Client α → Prog α
  | .done a => .ret a
  | .call c k => (libProg P d i s fuel c).attempt fun r => clientProg (k r)

/-- The keyword a call is about. -/
def Spec.LibCall.keyword : LibCall → List GoString
  | .index c => [c.keyword]
  | _ => []

/-- The inputs from outside of a call in a world. -/
def libIn (w : World) (c : LibCall) : LibIn where
  now := (env.now w.t).ns
  issued := match c with
    | .createToken _ => (env.now w.t).ns
    | _ => (env.now (w.t + 1)).ns
  newId := match c with
    | .dir c => (dirIn P s env w c).newId
    | _ => []
  fresh := match c with
    | .d1 c => freshOid d env w c.token
    | _ => nilOid
  password := drawnPassword env (w.t + 1)
  text := match c with
    | .dir (.loginUser uid _) => (sealedTok P s.tokenCryptor (some uid) ((env.now (w.t + 1)).add tokenValidity) (drawn env (w.t + 2) 32)
        (drawn env (w.t + 3) 12)).string P
    | _ => []
  token := match c with
    | .createToken p => sealedTok P d.tokenCryptor p ((env.now w.t).add tokenValidity) (drawn env (w.t + 1) 32) (drawn env (w.t + 2) 12)
    | _ => ⟨⟨0, 0⟩, none, none⟩

/-- The inputs of the calls that a client makes from this world on. -/
def clientIns {α : Type} : Client α → World → Nat → LibIn
  | .done _, w, _ => libIn P d s env w (.createToken none)
  | .call c _, w, 0 => libIn P d s env w c
  | .call c k, w, n + 1 => clientIns (k ((libProg P d i s fuel c).run env w).1.told) ((libProg P d i s fuel c).run env w).2 n

/-- The calls that it makes. -/
def clientCalls {α : Type} : Client α → World → List LibCall
  | .done _, _ => []
  | .call c k, w => c :: clientCalls (k ((libProg P d i s fuel c).run env w).1.told) ((libProg P d i s fuel c).run env w).2

/-- The caller does not break the cryptography: a text that is accepted was issued by a login, a token that is accepted was issued by `CreateToken`, and
a wrong password does not have the hash of the right one. -/
structure HonestCall (w : World) (l : Library) (c : LibCall) : Prop where
  text : ∀ t, c.text = some t → (∃ uid, tokenUser P s.tokenCryptor t (env.now w.t).ns = some uid) → ∃ e ∈ l.sessions, e.text = t
  token : ∀ t, c = .tokenContents t → (∃ b w', (d.getTokenContents P t).run env w = (.ok b, w')) → ∃ e ∈ l.tokens, e.token = t
  password : ∀ uid p u, c = .dir (.loginUser uid p) ∨ c = .dir (.changePassword uid p) → l.users uid = some u → p ≠ u.password →
    ∀ salt : BytesN 8, P.pbkdf2 p salt.1 ≠ P.pbkdf2 u.password salt.1

/-- Every call of a client is honest. -/
def Honest {α : Type} : Client α → World → Library → Prop
  | .done _, _, _ => True
  | .call c k, w, l => HonestCall P d s env w l c ∧
      Honest (k (libStep sanitize l (libIn P d s env w c) c).1) ((libProg P d i s fuel c).run env w).2 (libStep sanitize l (libIn P d s env w c) c).2

end

/-! ## The directory -/

/-- The same user, with a hash instead of the password. -/
def UserMatch (P : Prims) : Option LibUser → Option DirUser → Prop
  | none, none => True
  | some u, some x => x.scopes = u.scopes ∧ x.groups = u.groups ∧
      ∃ salt : BytesN 8, ∀ p, x.accepts p = decide (P.pbkdf2 p salt.1 = P.pbkdf2 u.password salt.1)
  | _, _ => False

/-- The same users and groups. -/
def DirMatch (P : Prims) (l : Library) (v : Dir) : Prop := (∀ uid, UserMatch P (l.users uid) (v.users uid)) ∧ v.groups = l.groups

section
variable {P : Prims} {d : D1} {i : SecureIndex} {s : Standalone} {fuel : Nat} {env : Env}

theorem DirMatch.setUser {l : Library} {v : Dir} (h : DirMatch P l v) {u : Option LibUser} {x : Option DirUser} (hu : UserMatch P u x) (uid : GoString) :
    DirMatch P (l.setUser uid u) (v.setUser uid x) := by
  refine ⟨fun y => ?_, h.2⟩
  simp only [Library.setUser, Dir.setUser]
  by_cases hy : y = uid
  · rw [if_pos hy, if_pos hy]; exact hu
  · rw [if_neg hy, if_neg hy]; exact h.1 y

theorem DirMatch.setGroup {l : Library} {v : Dir} (h : DirMatch P l v) (gid : GoString) (sc : Scope) :
    DirMatch P (l.setGroup gid sc) (v.setGroup gid sc) :=
  ⟨h.1, by simp only [Library.setGroup, Dir.setGroup, h.2]⟩

/-- The same caller. -/
theorem DirMatch.identify {l : Library} {v : Dir} (h : DirMatch P l v) {now : Int} {t : GoString} {who : Option GoString} (hw : l.who now t = who) :
    (∃ e, l.identify now t = .error e ∧ v.identify who = .error e) ∨
    ∃ me u x, l.identify now t = .ok (me, u) ∧ v.identify who = .ok (me, x) ∧ l.users me = some u ∧ v.users me = some x ∧ UserMatch P (some u) (some x) := by
  simp only [Library.identify, hw]
  cases who with
  | none => exact .inl ⟨_, rfl, rfl⟩
  | some uid =>
    have hu := h.1 uid
    simp only [Dir.identify]
    cases h1 : l.users uid with
    | none =>
      cases h2 : v.users uid with
      | none => exact .inl ⟨_, rfl, rfl⟩
      | some x => rw [h1, h2] at hu; exact hu.elim
    | some u =>
      cases h2 : v.users uid with
      | none => rw [h1, h2] at hu; exact hu.elim
      | some x =>
        rw [h1, h2] at hu
        have hg : (x.groups.all fun g => (v.groups g).isSome) = u.groups.all fun g => (l.groups g).isSome := by rw [hu.2.1, h.2]
        simp only [hg]
        by_cases ha : (u.groups.all fun g => (l.groups g).isSome) = true
        · rw [if_pos ha, if_pos ha]
          exact .inr ⟨uid, u, x, rfl, rfl, h1, h2, hu⟩
        · rw [if_neg ha, if_neg ha]
          exact .inl ⟨_, rfl, rfl⟩

theorem DirMatch.identity {l : Library} {v : Dir} (h : DirMatch P l v) {now : Int} {t : GoString} {who : Option GoString} (hw : l.who now t = who) :
    dirCaller v who = l.identity now t := by
  rw [dirCaller, Library.identity]
  rcases h.identify hw with ⟨e, h1, h2⟩ | ⟨me, u, x, h1, h2, -, -, h3, h4, -⟩
  · rw [h1, h2]
  · rw [h1, h2]
    simp only [dirIdentity, h3, h4, h.2]

theorem asCaller_match {l : Library} {v : Dir} (h : DirMatch P l v) {now : Int} {t : GoString} {who : Option GoString} (hw : l.who now t = who)
    {f : GoString → LibUser → Except Err LibRes × Library} {g : GoString → DirUser → Except Err DirRes × Dir} {R : Except Err LibRes × Library → Except Err DirRes × Dir → Prop}
    (h0 : ∀ e, R (.error e, l) (.error e, v))
    (hf : ∀ me u x, l.users me = some u → v.users me = some x → UserMatch P (some u) (some x) → R (f me u) (g me x)) :
    R (l.asCaller now t f) (v.asCaller who g) := by
  simp only [Library.asCaller, Dir.asCaller]
  rcases h.identify hw with ⟨e, h1, h2⟩ | ⟨me, u, x, h1, h2, h3, h4, h5⟩
  · rw [h1, h2]; exact h0 e
  · rw [h1, h2]; exact hf me u x h3 h4 h5

/-- What a call of the directory leaves alone. -/
def SameRest (l l' : Library) : Prop := l'.sessions = l.sessions ∧ l'.objects = l.objects ∧ l'.index = l.index ∧ l'.tokens = l.tokens

/-- The steps match. -/
def StepMatch (P : Prims) (l : Library) (a : Except Err LibRes × Library) (b : Except Err DirRes × Dir) : Prop :=
  a.1 = b.1.map .dir ∧ DirMatch P a.2 b.2 ∧ SameRest l a.2

theorem StepMatch.same {l : Library} {v : Dir} (h : DirMatch P l v) {r : Except Err LibRes} {q : Except Err DirRes} (hr : r = q.map .dir) :
    StepMatch P l (r, l) (q, v) := ⟨hr, h, rfl, rfl, rfl, rfl⟩

theorem libDir_match {l : Library} {v : Dir} (h : DirMatch P l v) {w : World} {c : DirCall} (hc : ∀ u p, c ≠ .loginUser u p)
    (hh : HonestCall P d s env w l (.dir c)) (hw : l.who (env.now w.t).ns c.token = tokenUser P s.tokenCryptor c.token (env.now w.t).ns ∨ LibCall.text (.dir c) = none) :
    StepMatch P l (libDir l (libIn P d s env w (.dir c)) c) (dirStep v (dirIn P s env w c) c) := by
  cases c with
  | loginUser u p => exact absurd rfl (hc u p)
  | newUser sc =>
    simp only [libDir, dirStep, libIn]
    have := h.1 (dirIn P s env w (.newUser sc)).newId
    cases h1 : l.users (dirIn P s env w (.newUser sc)).newId with
    | none =>
      cases h2 : v.users (dirIn P s env w (.newUser sc)).newId with
      | none => (refine ⟨rfl, h.setUser ?_ _, rfl, rfl, rfl, rfl⟩; exact ⟨rfl, rfl, drawn env (w.t + 2) saltLength, fun p => rfl⟩)
      | some x => rw [h1, h2] at this; exact this.elim
    | some u =>
      cases h2 : v.users (dirIn P s env w (.newUser sc)).newId with
      | none => rw [h1, h2] at this; exact this.elim
      | some x => exact .same h rfl
  | changePassword uid p =>
    simp only [libDir, dirStep, libIn]
    have := h.1 uid
    cases h1 : l.users uid with
    | none =>
      cases h2 : v.users uid with
      | none => exact .same h rfl
      | some x => rw [h1, h2] at this; exact this.elim
    | some u =>
      cases h2 : v.users uid with
      | none => rw [h1, h2] at this; exact this.elim
      | some x =>
        rw [h1, h2] at this
        obtain ⟨h3, h4, salt, h5⟩ := this
        simp only [h5]
        by_cases hp : u.password = p
        · subst hp
          simp only [decide_true, if_true]
          refine ⟨rfl, h.setUser ?_ _, rfl, rfl, rfl, rfl⟩; exact ⟨h3, h4, drawn env (w.t + 2) saltLength, fun p => rfl⟩
        · rw [if_neg hp, if_neg (by simpa using hh.password uid p u (.inr rfl) h1 (fun e => hp e.symm) salt)]
          exact .same h rfl
  | newGroup t sc =>
    have hw := hw.resolve_right (by simp [LibCall.text])
    refine asCaller_match h hw (fun e => .same h rfl) fun me u x h1 h2 h3 => ?_
    simp only [libIn, h.2]
    cases l.groups (dirIn P s env w (.newGroup t sc)).newId with
    | some _ => exact .same h rfl
    | none => (refine ⟨rfl, (h.setGroup _ _).setUser ?_ _, rfl, rfl, rfl, rfl⟩; exact ⟨h3.1, by rw [h3.2.1], h3.2.2⟩)
  | addUser t uid gs =>
    have hw := hw.resolve_right (by simp [LibCall.text])
    refine asCaller_match h hw (fun e => .same h rfl) fun me u x h1 h2 h3 => ?_
    simp only [h3.2.1]
    split
    · have := h.1 uid
      cases k1 : l.users uid with
      | none =>
        cases k2 : v.users uid with
        | none => exact .same h rfl
        | some x => rw [k1, k2] at this; exact this.elim
      | some u' =>
        cases k2 : v.users uid with
        | none => rw [k1, k2] at this; exact this.elim
        | some x' =>
          rw [k1, k2] at this
          refine ⟨rfl, h.setUser ?_ _, rfl, rfl, rfl, rfl⟩; exact ⟨this.1, by rw [this.2.1], this.2.2⟩
    · exact .same h rfl
  | removeUser t uid gs =>
    have hw := hw.resolve_right (by simp [LibCall.text])
    refine asCaller_match h hw (fun e => .same h rfl) fun me u x h1 h2 h3 => ?_
    simp only [h3.2.1]
    split
    · have := h.1 uid
      cases k1 : l.users uid with
      | none =>
        cases k2 : v.users uid with
        | none => exact .same h rfl
        | some x => rw [k1, k2] at this; exact this.elim
      | some u' =>
        cases k2 : v.users uid with
        | none => rw [k1, k2] at this; exact this.elim
        | some x' =>
          rw [k1, k2] at this
          refine ⟨rfl, h.setUser ?_ _, rfl, rfl, rfl, rfl⟩; exact ⟨this.1, by rw [this.2.1], this.2.2⟩
    · exact .same h rfl
  | deleteUser t uid =>
    have hw := hw.resolve_right (by simp [LibCall.text])
    exact asCaller_match h hw (fun e => .same h rfl) fun me u x h1 h2 h3 => ⟨rfl, h.setUser (u := none) (x := none) trivial _, rfl, rfl, rfl, rfl⟩
  | getIdentity t =>
    have hw := hw.resolve_right (by simp [LibCall.text])
    refine asCaller_match h hw (fun e => .same h rfl) fun me u x h1 h2 h3 => .same h ?_
    simp only [Except.map, h3.1]
    congr 3
    funext g
    rw [Dir.memberships, h3.2.1, h.2]

/-! ## One call -/

/-- The store holds this library. -/
structure LibRel (P : Prims) (d : D1) (i : SecureIndex) (s : Standalone) (K : List GoString) (N : Nat) (st : Store) (l : Library) (a : Nat) : Prop where
  dir : ∃ v, DirRel P s st v ∧ DirMatch P l v
  objects : Rel P d st l.objects
  index : IxRel P i K N st l.index a
  sessions : ∀ e ∈ l.sessions, ∀ now, tokenUser P s.tokenCryptor e.text now = if now ≤ e.expires then some e.uid else none
  tokens : ∀ e ∈ l.tokens, ∀ env w, (d.getTokenContents P e.token).run env w =
    (if (env.now w.t).ns ≤ e.expires then .ok e.contents else .err .tokenExpired, w.next w.store)

theorem find_some {α : Type} {p : α → Bool} {l : List α} (h : ∃ x ∈ l, p x = true) : ∃ x ∈ l, p x = true ∧ l.find? p = some x := by
  cases hf : l.find? p with
  | none => obtain ⟨x, h1, h2⟩ := h; exact absurd h2 (by simpa using List.find?_eq_none.mp hf x h1)
  | some x => exact ⟨x, List.mem_of_find?_eq_some hf, List.find?_some hf, rfl⟩

/-- Whoever presents a text. -/
theorem LibRel.who {K : List GoString} {N : Nat} {w : World} {l : Library} {a : Nat} (h : LibRel P d i s K N w.store l a) {c : LibCall}
    (hh : HonestCall P d s env w l c) {t : GoString} (ht : c.text = some t) :
    l.who (env.now w.t).ns t = tokenUser P s.tokenCryptor t (env.now w.t).ns := by
  rw [Library.who]
  by_cases hx : ∃ e ∈ l.sessions, e.text = t
  · obtain ⟨e, h1, h2, h3⟩ := find_some (p := fun e : Session => decide (e.text = t)) (l := l.sessions) (by simpa using hx)
    rw [h3]
    simp only [decide_eq_true_eq] at h2
    rw [← h2, h.sessions e h1]
  · have : (l.sessions.find? fun e => decide (e.text = t)) = none := by
      rw [List.find?_eq_none]
      exact fun e he => by simpa using fun h' => hx ⟨e, he, h'⟩
    rw [this]
    cases hu : tokenUser P s.tokenCryptor t (env.now w.t).ns with
    | none => rfl
    | some uid => exact absurd (hh.text t ht ⟨uid, hu⟩) hx

theorem dir_frame (c : DirCall) (env : Env) (w : World) (x : Bytes) : ((dirProg P s c).run env w).2.store x dtNode = w.store x dtNode := by
  refine AllEff.frame_run (dt := dtNode) ?_ env w
  have hr : ∀ n, (Eff.rand n).target ≠ some (x, dtNode) := fun n => by simp [Eff.target]
  have hn : Eff.now.target ≠ some (x, dtNode) := by simp [Eff.target]
  have hg : ∀ y dt, (Eff.get y dt).target ≠ some (x, dtNode) := fun y dt => by simp [Eff.target]
  have h1 : ∀ y b, (Eff.put y dtUser b).target ≠ some (x, dtNode) := fun y b => by simp [Eff.target, dtUser, dtNode, dtEnd]
  have h2 : ∀ y b, (Eff.update y dtUser b).target ≠ some (x, dtNode) := fun y b => by simp [Eff.target, dtUser, dtNode, dtEnd]
  have h3 : ∀ y b, (Eff.put y dtGroup b).target ≠ some (x, dtNode) := fun y b => by simp [Eff.target, dtGroup, dtNode, dtEnd]
  have h4 : ∀ y, (Eff.delete y dtUser).target ≠ some (x, dtNode) := fun y => by simp [Eff.target, dtUser, dtNode, dtEnd]
  cases c with
  | newUser sc => exact .bind (allEff_newUser hr h1 h2 sc) fun _ => trivial
  | loginUser u p => exact .bind (allEff_loginUser hr hn (hg _ _) p) fun _ => trivial
  | changePassword u p => exact .bind (allEff_changeUserPassword hr (hg _ _) (h1 _) (h2 _) p) fun _ => trivial
  | newGroup t sc => exact .bind (allEff_newGroup hr hn (fun _ => hg _ _) (fun _ => hg _ _) h1 h2 h3 t sc) fun _ => trivial
  | addUser t u gs => exact .bind (allEff_addUserToGroups hr hn (fun _ => hg _ _) (fun _ => hg _ _) (h1 _) (h2 _) t gs) fun _ => trivial
  | removeUser t u gs => exact .bind (allEff_removeUserFromGroups hr hn (fun _ => hg _ _) (fun _ => hg _ _) (h1 _) (h2 _) t gs) fun _ => trivial
  | deleteUser t u => exact .bind (allEff_deleteUser hn (fun _ => hg _ _) (fun _ => hg _ _) (h4 _) t) fun _ => trivial
  | getIdentity t => exact .bind (allEff_getIdentity hn (fun _ => hg _ _) (fun _ => hg _ _) t) fun _ => trivial

theorem call_frame_node (hd : d.idProvider = s.getIdentity P) (c : Call) (env : Env) (w : World) (x : Bytes) :
    ((callProg P d c).run env w).2.store x dtNode = w.store x dtNode := by
  refine AllEff.frame_run (dt := dtNode) ?_ env w
  refine allEff_call c ?_ (by simp [Eff.target]) fun e dt' h1 h2 _ => ?_
  · rw [hd]
    exact allEff_getIdentity (by simp [Eff.target]) (by simp [Eff.target]) (by simp [Eff.target]) _
  · intro ht
    cases e <;> simp only [Eff.target, Eff.dataType, Option.some.injEq, Prod.mk.injEq, reduceCtorEq] at h1 ht
    all_goals
      rw [← h1, ht.2] at h2
      revert h2
      decide

theorem ix_frame (hi : i.idProvider = s.getIdentity P) (c : IxCall) (env : Env) (w : World) (x : Bytes) {dt : DataType} (hdt : dt ≠ dtNode) :
    ((ixProg P i fuel c).run env w).2.store x dt = w.store x dt := by
  refine AllEff.frame_run ?_ env w
  have hr : ∀ n, (Eff.rand n).target ≠ some (x, dt) := fun n => by simp [Eff.target]
  have hid : ∀ t, AllEff (fun e => e.target ≠ some (x, dt)) (i.idProvider t) := fun t => by
    rw [hi]
    exact allEff_getIdentity (by simp [Eff.target]) (by simp [Eff.target]) (by simp [Eff.target]) t
  have hn : ∀ e : Eff, e.dataType = some dtNode → e.target ≠ some (x, dt) := by
    intro e h1 ht
    cases e <;> simp only [Eff.target, Eff.dataType, Option.some.injEq, Prod.mk.injEq, reduceCtorEq] at h1 ht
    all_goals exact hdt (ht.2.symm.trans h1)
  cases c with
  | add t kw y => exact .bind (allEff_add (hid t) hr hn _ _ _) fun _ => trivial
  | search t kw => exact .bind (allEff_search (hid t) (fun _ => hn _ rfl) _ _) fun _ => trivial
  | delete t kw y => exact .bind (allEff_delete (hid t) hr hn _ _ _) fun _ => trivial

theorem standalone_ixIdp (hi : i.idProvider = s.getIdentity P) : IxIdp i := fun t => by
  rw [hi]
  exact ⟨allEff_getIdentity (by simp [Eff.target]) (by simp [Eff.target]) (by simp [Eff.target]) t, (returns_getIdentity t).mono fun o h => by
    cases o <;> trivial⟩

variable (L : P.Laws)

theorem run_tokenContents (w : World) (t : SealedToken) : (d.getTokenContents P t).run env w =
    (if t.expiryTime.ns < (env.now w.t).ns then .err .tokenExpired else
      match d.tokenCryptor.decrypt P J.toBytes (.ofTime P t.expiryTime) t.wrappedKey.bytes t.ciphertext.bytes with
      | .error e => .err e
      | .ok p => .ok p, w.next w.store) := by
  rw [D1.getTokenContents, Prog.bind_eq, Prog.run_bind, run_unseal]
  by_cases h : t.expiryTime.ns < (env.now w.t).ns
  · simp only [if_pos h]
  · simp only [if_neg h]
    cases d.tokenCryptor.decrypt P J.toBytes (.ofTime P t.expiryTime) t.wrappedKey.bytes t.ciphertext.bytes <;> rfl

include L in
theorem ixWho_standalone (hi : i.idProvider = s.getIdentity P) (hf : NoFault env) {v : Dir} {w : World} (h : DirRel P s w.store v) (t : GoString) :
    ixWho i env w t = dirCaller v (tokenUser P s.tokenCryptor t (env.now w.t).ns) := by
  obtain ⟨w', _, h1⟩ := run_getIdentity L hf h t
  rw [ixWho, hi, h1, dirCaller]
  cases v.identify (tokenUser P s.tokenCryptor t (env.now w.t).ns) <;> rfl

theorem run_map {α β : Type} {p : Prog α} {r : Except Err α} {f : α → β} {w w' : World} (h : p.run env w = (toOutcome r, w')) :
    (p.bind fun a => .ret (f a)).run env w = (toOutcome (r.map f), w') := by
  cases r with
  | error e => rw [Prog.run_bind_err env h]; rfl
  | ok a => rw [Prog.run_bind_ok env h]; rfl

include L in
theorem run_login (hf : NoFault env) (hr : RandOk env) {v : Dir} {l : Library} {w : World} (h : DirRel P s w.store v) (hm : DirMatch P l v) {uid pwd : GoString}
    (hh : HonestCall P d s env w l (.dir (.loginUser uid pwd))) :
    ∃ w', (libProg P d i s fuel (.dir (.loginUser uid pwd))).run env w =
      (toOutcome (libDir l (libIn P d s env w (.dir (.loginUser uid pwd))) (.loginUser uid pwd)).1, w') ∧ w'.store = w.store := by
  have hu := h.1 uid
  have hm := hm.1 uid
  simp only [libProg, libDir, loginUser_eq, Prog.bind_assoc]
  cases hv : v.users uid with
  | none =>
    rw [hv] at hu hm
    cases hl : l.users uid with
    | some _ => rw [hl] at hm; exact hm.elim
    | none =>
      rw [Prog.run_bind_err env (run_mapErr_err (run_getUser_none hf hu))]
      exact ⟨_, rfl, rfl⟩
  | some x =>
    rw [hv] at hu hm
    cases hl : l.users uid with
    | none => rw [hl] at hm; exact hm.elim
    | some u =>
      rw [hl] at hm
      obtain ⟨-, -, salt, ha⟩ := hm
      obtain ⟨hash, hg, hc⟩ := run_getUser L hf hu
      rw [Prog.run_bind_ok env (run_mapErr_ok.mpr hg)]
      simp only
      by_cases hp : u.password = pwd
      · rw [if_pos hp]
        have ha : x.accepts pwd = true := by rw [ha, hp]; simp
        have : (User.authenticate P ⟨some hash, x.scopes, some x.groups⟩ pwd).run env (w.next w.store) = (.ok (), w.next w.store) := by
          simp only [User.authenticate, NBytes.bytes, Option.getD_some, hc, ha]
          rfl
        rw [Prog.run_bind_ok env (run_mapErr_ok.mpr this)]
        have hm := run_mint L hr s.tokenCryptor (some uid) (w.next w.store)
        rw [mint] at hm
        obtain ⟨t, w1, ht, hst⟩ := (Prog.run_bind_ok_iff env).mp hm
        rw [Prog.run_bind_ok env ht, Prog.run_bind_ok env (run_mapErr_ok.mpr hst)]
        exact ⟨⟨w.store, w.t + 4⟩, rfl, rfl⟩
      · rw [if_neg hp]
        have ha : x.accepts pwd = false := by
          rw [ha]
          simpa using hh.password uid pwd u (.inl rfl) hl (fun e => hp e.symm) salt
        have : (User.authenticate P ⟨some hash, x.scopes, some x.groups⟩ pwd).run env (w.next w.store) = (.err .idNotAuthenticated, w.next w.store) := by
          simp only [User.authenticate, NBytes.bytes, Option.getD_some, hc, ha]
          rfl
        rw [Prog.run_bind_err env (run_mapErr_err this)]
        exact ⟨_, rfl, rfl⟩

include L in
/-- One call of the library is one step of the machine. -/
theorem run_libCall (hd : d.idProvider = s.getIdentity P) (hi : i.idProvider = s.getIdentity P) (hk : i.indexKey.length = 32) (hf : NoFault env)
    (hr : RandOk env) {K : List GoString} {N : Nat} (hN : N < 2 ^ 64) (ha : Apart P i K N) (hfuel : N < fuel) {l : Library} {w : World} {a : Nat}
    (haN : a < N) (h : LibRel P d i s K N w.store l a) (c : LibCall) (hc : ∀ kw ∈ c.keyword, kw ∈ K) (hh : HonestCall P d s env w l c) :
    ∃ w', (libProg P d i s fuel c).run env w = (toOutcome (libStep sanitize l (libIn P d s env w c) c).1, w') ∧
      LibRel P d i s K N w'.store (libStep sanitize l (libIn P d s env w c) c).2 (a + 1) := by
  obtain ⟨v, hv, hm⟩ := h.dir
  cases c with
  | dir c =>
    by_cases hlog : ∃ u p, c = .loginUser u p
    · obtain ⟨uid, pwd, rfl⟩ := hlog
      obtain ⟨w', h1, h2⟩ := run_login (i := i) (fuel := fuel) L hf hr hv hm hh
      refine ⟨w', h1, ?_⟩
      simp only [libStep, libDir]
      rw [h2]
      cases hl : l.users uid with
      | none => exact { h with index := h.index.mono (by omega) }
      | some u =>
        simp only
        split
        · refine ⟨⟨v, hv, hm⟩, h.objects, h.index.mono (by omega), fun e he now => ?_, h.tokens⟩
          rcases List.mem_cons.mp he with rfl | he
          · simp only [libIn, tokenUser_string L]
            rfl
          · exact h.sessions e he now
        · exact { h with index := h.index.mono (by omega) }
    · have hlog : ∀ u p, c ≠ .loginUser u p := fun u p e => hlog ⟨u, p, e⟩
      have hw : l.who (env.now w.t).ns c.token = tokenUser P s.tokenCryptor c.token (env.now w.t).ns ∨ LibCall.text (.dir c) = none := by
        cases c with
        | newUser _ => exact .inr rfl
        | changePassword _ _ => exact .inr rfl
        | loginUser u p => exact absurd rfl (hlog u p)
        | _ => exact .inl (h.who hh rfl)
      obtain ⟨s1, s2, s3, s4, s5, s6⟩ := libDir_match hm hlog hh hw
      obtain ⟨w', h1, h2, h3⟩ := run_dirCall L hf hr hv c
      have hfr := dir_frame (P := P) (s := s) c env w
      rw [h1] at hfr
      have e : libProg P d i s fuel (.dir c) = (dirProg P s c).bind fun r => .ret (.dir r) := by
        cases c <;> first | rfl | exact absurd rfl (hlog _ _)
      rw [e]
      refine ⟨w', ?_, ⟨_, h2, s2⟩, ?_, ?_, ?_, ?_⟩
      · rw [run_map h1]
        simp only [libStep]
        rw [s1]
      · simp only [libStep]; rw [s4]; exact Rel.congr h3 h.objects
      · simp only [libStep]; rw [s5]; exact (h.index.congr hfr).mono (by omega)
      · simp only [libStep]; rw [s3]; exact h.sessions
      · simp only [libStep]; rw [s6]; exact h.tokens
  | d1 c =>
    obtain ⟨w', h1, h2⟩ := run_call L hf hr (standalone_idpOk hd env) h.objects c
    have hfr := call_frame hd env w c
    have hfn := call_frame_node hd c env w
    rw [whoIs_standalone L hd hf hv, hm.identity (h.who hh rfl)] at h1 h2
    rw [h1] at hfr hfn
    exact ⟨w', run_map h1, ⟨v, hv.congr hfr, hm⟩, h2, (h.index.congr hfn).mono (by omega), h.sessions, h.tokens⟩
  | index c =>
    obtain ⟨w', h1, h2⟩ := run_ixCall L hk hf hr (standalone_ixIdp hi) hN ha haN hfuel c (hc _ (by simp [LibCall.keyword])) h.index
    have hfr : ∀ x dt, dt ≠ dtNode → _ := fun x dt hdt => ix_frame (fuel := fuel) hi c env w x hdt
    rw [ixWho_standalone L hi hf hv, hm.identity (h.who hh rfl)] at h1 h2
    rw [h1] at hfr
    exact ⟨w', run_map h1, ⟨v, hv.congr fun x => ⟨hfr x _ (by decide), hfr x _ (by decide)⟩, hm⟩,
      Rel.congr (fun x => ⟨hfr x _ (by decide), hfr x _ (by decide)⟩) h.objects, h2, h.sessions, h.tokens⟩
  | createToken p =>
    have h1 := run_mint L hr d.tokenCryptor p w
    refine ⟨_, run_map (r := .ok _) h1, ⟨v, hv, hm⟩, h.objects, h.index.mono (by omega), h.sessions, fun e he env' w2 => ?_⟩
    rcases List.mem_cons.mp he with rfl | he
    · show (d.getTokenContents P (sealedTok P d.tokenCryptor p ((env.now w.t).add tokenValidity) (drawn env (w.t + 1) 32) (drawn env (w.t + 2) 12))).run
        env' w2 = (if (env'.now w2.t).ns ≤ (env.now w.t).ns + hour then .ok p else .err .tokenExpired, w2.next w2.store)
      rw [run_tokenContents]
      have hd := decrypt_sealedTok L d.tokenCryptor p ((env.now w.t).add tokenValidity) _ rfl (drawn env (w.t + 1) 32) (drawn env (w.t + 2) 12)
      rw [show (sealedTok P d.tokenCryptor p ((env.now w.t).add tokenValidity) (drawn env (w.t + 1) 32) (drawn env (w.t + 2) 12)).expiryTime =
        (env.now w.t).add tokenValidity from rfl, hd]
      have he : ((env.now w.t).add tokenValidity).ns = (env.now w.t).ns + hour := rfl
      rw [he]
      by_cases hle : (env'.now w2.t).ns ≤ (env.now w.t).ns + hour
      · rw [if_pos hle, if_neg (by omega)]
      · rw [if_neg hle, if_pos (by omega)]
    · exact h.tokens e he env' w2
  | tokenContents t =>
    have hrel : LibRel P d i s K N w.store l (a + 1) := { h with index := h.index.mono (by omega) }
    simp only [libProg, libStep]
    by_cases hx : ∃ e ∈ l.tokens, e.token = t
    · obtain ⟨e, h1, h2, h3⟩ := find_some (p := fun e : Issued => decide (e.token = t)) (l := l.tokens) (by simpa using hx)
      simp only [decide_eq_true_eq] at h2
      have hrun := h.tokens e h1 env w
      rw [h2] at hrun
      rw [h3]
      simp only
      by_cases hle : (env.now w.t).ns ≤ e.expires
      · rw [if_pos hle] at hrun
        rw [if_pos (show (libIn P d s env w (.tokenContents t)).now ≤ e.expires from hle)]
        rw [Prog.run_bind_ok env (run_mapErr_ok.mpr hrun)]
        exact ⟨_, rfl, hrel⟩
      · rw [if_neg hle] at hrun
        rw [if_neg (show ¬ (libIn P d s env w (.tokenContents t)).now ≤ e.expires from hle)]
        rw [Prog.run_bind_err env (run_mapErr_err hrun)]
        exact ⟨_, rfl, hrel⟩
    · have : (l.tokens.find? fun e => decide (e.token = t)) = none := by
        rw [List.find?_eq_none]
        exact fun e he => by simpa using fun h' => hx ⟨e, he, h'⟩
      rw [this]
      have hrun := run_tokenContents (d := d) (P := P) (env := env) w t
      have : ∃ e, (d.getTokenContents P t).run env w = (.err e, w.next w.store) := by
        rw [hrun]
        split
        · exact ⟨_, rfl⟩
        · next hlt =>
          split
          · exact ⟨_, rfl⟩
          · next p hp =>
            refine absurd (hh.token t rfl ⟨p, w.next w.store, ?_⟩) hx
            rw [hrun, if_neg hlt, hp]
      obtain ⟨e, he⟩ := this
      rw [Prog.run_bind_err env (run_mapErr_err he)]
      exact ⟨_, rfl, hrel⟩

theorem told_toOutcome {α : Type} (r : Except Err α) : (toOutcome r).told = r := by cases r <;> rfl

theorem run_attempt_toOutcome {α β : Type} {p : Prog α} {r : Except Err α} {k : Except Err α → Prog β} {w w' : World} (h : p.run env w = (toOutcome r, w')) :
    (p.attempt k).run env w = (k r).run env w' := by
  cases r with
  | error e => exact Prog.run_attempt_err env h
  | ok a => exact Prog.run_attempt_ok env h

include L in
/-- C88, from any library.  `K` are the keywords and `N` bounds the number of calls. -/
theorem C88_from (hd : d.idProvider = s.getIdentity P) (hi : i.idProvider = s.getIdentity P) (hk : i.indexKey.length = 32) (hf : NoFault env)
    (hr : RandOk env) {K : List GoString} {N : Nat} (hN : N < 2 ^ 64) (ha : Apart P i K N) (hfuel : N < fuel) {α : Type} (p : Client α) {l : Library}
    {w : World} {a : Nat} (hlen : a + (clientCalls P d i s fuel env p w).length ≤ N)
    (hkw : ∀ c ∈ clientCalls P d i s fuel env p w, ∀ kw ∈ c.keyword, kw ∈ K) (h : LibRel P d i s K N w.store l a) (hh : Honest P d i s fuel env p w l) :
    ∃ w', (clientProg P d i s fuel p).run env w = (.ok (p.play sanitize l (clientIns P d i s fuel env p w)).1, w') ∧
      LibRel P d i s K N w'.store (p.play sanitize l (clientIns P d i s fuel env p w)).2 (a + (clientCalls P d i s fuel env p w).length) := by
  induction p generalizing l w a with
  | done x => exact ⟨w, rfl, h⟩
  | call c k ih =>
    simp only [clientCalls, List.length_cons, List.mem_cons, forall_eq_or_imp] at hlen hkw
    obtain ⟨hh1, hh2⟩ := hh
    obtain ⟨w', h1, h2⟩ := run_libCall L hd hi hk hf hr hN ha hfuel (by omega) h c hkw.1 hh1
    rw [h1] at hh2
    simp only [h1, told_toOutcome] at hlen hkw
    obtain ⟨w2, h3, h4⟩ := ih _ (a := a + 1) (w := w') (by omega) hkw.2 h2 hh2
    refine ⟨w2, ?_, ?_⟩
    · simp only [clientProg]
      rw [run_attempt_toOutcome h1, h3]
      simp only [Client.play, clientIns, h1, told_toOutcome]
    · simp only [clientCalls, Client.play, clientIns, h1, told_toOutcome, List.length_cons]
      rw [show a + ((clientCalls P d i s fuel env (k (libStep sanitize l (libIn P d s env w c) c).1) w').length + 1) =
        a + 1 + (clientCalls P d i s fuel env (k (libStep sanitize l (libIn P d s env w c) c).1) w').length by omega]
      exact h4

theorem libRel_empty {K : List GoString} {N : Nat} {st : Store} (h : ∀ x dt, st x dt = none) : LibRel P d i s K N st emptyLibrary 0 where
  dir := ⟨emptyDir, dirRel_empty fun x => ⟨h x _, h x _⟩, fun _ => trivial, rfl⟩
  objects := rel_empty P d st fun x => ⟨h x _, h x _⟩
  index := ixRel_empty fun x => h x _
  sessions := fun e he => by simp [emptyLibrary] at he
  tokens := fun e he => by simp [emptyLibrary] at he

include L in
/-- C88: any client of the library, starting with an empty store, comes to exactly what it comes to with the simple machine.  The client is any program
that makes calls of the Standalone provider, of D1 and of the Secure Index and decides from their results what to do next.  Hypotheses: requests to the
IO Provider and the random source do not fail (for failures see C86), the client does not break the cryptography (`Honest`), node labels do not collide
(`Apart`). -/
theorem C88_library (hd : d.idProvider = s.getIdentity P) (hi : i.idProvider = s.getIdentity P) (hk : i.indexKey.length = 32) (hf : NoFault env)
    (hr : RandOk env) {α : Type} (p : Client α) {w : World} (hw : ∀ x dt, w.store x dt = none)
    (hN : (clientCalls P d i s fuel env p w).length < 2 ^ 64) (hfuel : (clientCalls P d i s fuel env p w).length < fuel)
    (ha : Apart P i ((clientCalls P d i s fuel env p w).flatMap LibCall.keyword) (clientCalls P d i s fuel env p w).length)
    (hh : Honest P d i s fuel env p w emptyLibrary) :
    ((clientProg P d i s fuel p).run env w).1 = .ok (p.play sanitize emptyLibrary (clientIns P d i s fuel env p w)).1 := by
  obtain ⟨w', h1, -⟩ := C88_from L hd hi hk hf hr hN ha hfuel p (a := 0) (by omega)
    (fun c hc kw hkw => List.mem_flatMap.mpr ⟨c, hc, hkw⟩) (libRel_empty hw) hh
  rw [h1]

include L in
/-- C88 on the library's own `Mem` provider. -/
theorem C88_mem (hd : d.idProvider = s.getIdentity P) (hi : i.idProvider = s.getIdentity P) (hk : i.indexKey.length = 32) (hf : NoFault env)
    (hr : RandOk env) {α : Type} (p : Client α)
    (hN : (clientCalls P d i s fuel env p (memView nothing)).length < 2 ^ 64) (hfuel : (clientCalls P d i s fuel env p (memView nothing)).length < fuel)
    (ha : Apart P i ((clientCalls P d i s fuel env p (memView nothing)).flatMap LibCall.keyword) (clientCalls P d i s fuel env p (memView nothing)).length)
    (hh : Honest P d i s fuel env p (memView nothing) emptyLibrary) :
    ((clientProg P d i s fuel p).runOn memProvider env nothing).1 = .ok (p.play sanitize emptyLibrary (clientIns P d i s fuel env p (memView nothing))).1 := by
  have := C75_mem env (clientProg P d i s fuel p) nothing
  rw [← C88_library L hd hi hk hf hr p (fun _ _ => rfl) hN hfuel ha hh, this]

/-- Every request that a program makes on `Bolt` is within the limits of bbolt. -/
def BoltRuns (env : Env) {α : Type} : Prog α → On KV → Prop
  | .op e k, w => BoltFits e ∧ BoltRuns env (k (boltProvider.step env w e).1) (boltProvider.step env w e).2
  | _, _ => True

theorem bolt_run {α : Type} {p : Prog α} {w : On KV} (hw : Tidy w.state) (hs : AllEff Solid p) (hfit : BoltRuns env p w) :
    p.run env (boltView w) = ((p.runOn boltProvider env w).1, boltView (p.runOn boltProvider env w).2) := by
  induction p generalizing w with
  | op e k ih =>
    simp only [Prog.run, Prog.runOn]
    rw [bolt_step env hw hfit.1]
    exact ih _ (hw.step env hs.1) (hs.2 _) hfit.2
  | _ => rfl

theorem solid_client (hd : d.idProvider = s.getIdentity P) (hi : i.idProvider = s.getIdentity P) {α : Type} (p : Client α) :
    AllEff Solid (clientProg P d i s fuel p) := by
  induction p with
  | done a => trivial
  | call c k ih =>
    refine AllEff.attempt ?_ fun r => ih r
    cases c with
    | dir c =>
      cases c with
      | loginUser u p => exact .bind (allEff_loginUser (fun _ => trivial) trivial trivial p) fun _ => trivial
      | _ => exact .bind (solid_dir _) fun _ => trivial
    | d1 c => exact .bind (solid_call c (by rw [hd]; exact solid_identity _)) fun _ => trivial
    | index c => exact .bind (solid_ix fuel c (by rw [hi]; exact solid_identity _)) fun _ => trivial
    | createToken p =>
      exact .bind (.bind (.bind (allEff_now trivial) fun _ => trivial) fun _ => .bind (solid_encrypt _ _ _) fun _ => trivial) fun _ => trivial
    | tokenContents t => exact .bind (.mapErr (.bind (allEff_tokenUnseal trivial _ _) fun _ => trivial)) fun _ => trivial

include L in
/-- C88 on the library's own `Bolt` provider, as long as records are within the limits of bbolt. -/
theorem C88_bolt (hd : d.idProvider = s.getIdentity P) (hi : i.idProvider = s.getIdentity P) (hk : i.indexKey.length = 32) (hf : NoFault env)
    (hr : RandOk env) {α : Type} (p : Client α) (hfit : BoltRuns env (clientProg P d i s fuel p) nothing)
    (hN : (clientCalls P d i s fuel env p (boltView nothing)).length < 2 ^ 64) (hfuel : (clientCalls P d i s fuel env p (boltView nothing)).length < fuel)
    (ha : Apart P i ((clientCalls P d i s fuel env p (boltView nothing)).flatMap LibCall.keyword) (clientCalls P d i s fuel env p (boltView nothing)).length)
    (hh : Honest P d i s fuel env p (boltView nothing) emptyLibrary) :
    ((clientProg P d i s fuel p).runOn boltProvider env nothing).1 =
      .ok (p.play sanitize emptyLibrary (clientIns P d i s fuel env p (boltView nothing))).1 := by
  have := bolt_run nothing_tidy (solid_client (fuel := fuel) hd hi p) hfit
  rw [← C88_library L hd hi hk hf hr p (fun _ _ => rfl) hN hfuel ha hh, this]

/-! ## A client -/

/-- A user is made, logs in, encrypts and decrypts an object, uses the index, and makes and reads a token. -/
def tour (o : Object) (kw id : GoString) (b : NBytes) : Client (List (Except Err LibRes)) :=
  .call (.dir (.newUser [scopeAll])) fun
    | .ok (.dir (.user u p)) => .call (.dir (.loginUser u p)) fun
      | .ok (.session t _) => .call (.d1 (.encrypt t o [])) fun
        | .ok (.d1 (.oid oid)) => .call (.d1 (.decrypt t oid)) fun r => .call (.index (.add t kw id)) fun _ => .call (.index (.search t kw)) fun q =>
          .call (.createToken b) fun
            | .ok (.token k) => .call (.tokenContents k) fun c => .done [r, q, c]
            | _ => .done []
        | _ => .done []
      | _ => .done []
    | _ => .done []

theorem callKnown_honest {w : World} {l : Library} {c : LibCall} (h : CallKnown l c) : HonestCall P d s env w l c :=
  ⟨fun t ht _ => h.1 t ht, fun t ht _ => h.2.1 t ht, fun uid p u hc hu hp => absurd (h.2.2 uid p u hc hu) hp⟩

include L in
theorem careful_honest (hd : d.idProvider = s.getIdentity P) (hi : i.idProvider = s.getIdentity P) (hk : i.indexKey.length = 32) (hf : NoFault env)
    (hr : RandOk env) {K : List GoString} {N : Nat} (hN : N < 2 ^ 64) (ha : Apart P i K N) (hfuel : N < fuel) {α : Type} (p : Client α) {l : Library}
    {w : World} {a : Nat} (hlen : a + (clientCalls P d i s fuel env p w).length ≤ N)
    (hkw : ∀ c ∈ clientCalls P d i s fuel env p w, ∀ kw ∈ c.keyword, kw ∈ K) (h : LibRel P d i s K N w.store l a)
    (hc : p.Careful sanitize l (clientIns P d i s fuel env p w)) : Honest P d i s fuel env p w l := by
  induction p generalizing l w a with
  | done x => trivial
  | call c k ih =>
    simp only [clientCalls, List.length_cons, List.mem_cons, forall_eq_or_imp] at hlen hkw
    obtain ⟨hc1, hc2⟩ := hc
    obtain ⟨w', h1, h2⟩ := run_libCall L hd hi hk hf hr hN ha hfuel (by omega) h c hkw.1 (callKnown_honest hc1)
    simp only [h1, told_toOutcome, clientIns] at hlen hkw hc2
    refine ⟨(callKnown_honest hc1), ?_⟩
    rw [h1]
    exact ih _ (a := a + 1) (w := w') (by omega) hkw.2 h2 hc2

include L in
/-- C88 for careful clients, who present only texts and tokens that calls have returned and the right passwords: no assumption about the cryptography is
left besides the laws of the primitives and the labels of the index. -/
theorem C88_careful (hd : d.idProvider = s.getIdentity P) (hi : i.idProvider = s.getIdentity P) (hk : i.indexKey.length = 32) (hf : NoFault env)
    (hr : RandOk env) {α : Type} (p : Client α) {w : World} (hw : ∀ x dt, w.store x dt = none)
    (hN : (clientCalls P d i s fuel env p w).length < 2 ^ 64) (hfuel : (clientCalls P d i s fuel env p w).length < fuel)
    (ha : Apart P i ((clientCalls P d i s fuel env p w).flatMap LibCall.keyword) (clientCalls P d i s fuel env p w).length)
    (hc : p.Careful sanitize emptyLibrary (clientIns P d i s fuel env p w)) :
    ((clientProg P d i s fuel p).run env w).1 = .ok (p.play sanitize emptyLibrary (clientIns P d i s fuel env p w)).1 :=
  C88_library L hd hi hk hf hr p hw hN hfuel ha (careful_honest L hd hi hk hf hr hN ha hfuel p (a := 0) (by omega)
    (fun c hc kw hkw => List.mem_flatMap.mpr ⟨c, hc, hkw⟩) (libRel_empty hw) hc)

theorem one_identity {l : Library} {n text : GoString} {u : LibUser} {exp now : Int} (hs : l.sessions = [⟨text, n, exp⟩]) (hu : l.users n = some u)
    (hg : u.groups = []) (hn : now ≤ exp) : l.identity now text = some ⟨n, u.scopes, []⟩ := by
  simp [Library.identity, Library.identify, Library.who, hs, hu, hg, hn]

theorem all_scopes : allScopes [scopeAll] = scopeAll := by decide
theorem in_all : scopeIn scopeEncrypt scopeAll = true ∧ scopeIn scopeDecrypt scopeAll = true ∧ scopeIn scopeIndex scopeAll = true := by decide

/-- The tour, on the machine. -/
theorem tour_play {ins : Nat → LibIn} (hclock : ∀ a b, (ins a).now ≤ (ins b).issued + hour) (hid : sanitize (ins 0).newId = (ins 0).newId)
    (o : Object) (kw x : GoString) (b : NBytes) : (tour o kw x b).Careful sanitize emptyLibrary ins ∧
      ((tour o kw x b).play sanitize emptyLibrary ins).1 = [.ok (.d1 (.object o)), .ok (.index (.ids [sanitize x])), .ok (.contents b)] := by
  let l1 := emptyLibrary.setUser (ins 0).newId (some ⟨(ins 0).password, scopeAll, []⟩)
  have e1 : libStep sanitize emptyLibrary (ins 0) (.dir (.newUser [scopeAll])) = (.ok (.dir (.user (ins 0).newId (ins 0).password)), l1) := by
    simp [libStep, libDir, emptyLibrary, all_scopes, l1]
  have u1 : l1.users (ins 0).newId = some ⟨(ins 0).password, scopeAll, []⟩ := by simp [l1, Library.setUser]
  let l2 : Library := { l1 with sessions := [⟨(ins 1).text, (ins 0).newId, (ins 1).issued + hour⟩] }
  have e2 : libStep sanitize l1 (ins 1) (.dir (.loginUser (ins 0).newId (ins 0).password)) =
      (.ok (.session (ins 1).text (((ins 1).issued + hour) / 1000000000)), l2) := by
    simp [libStep, libDir, u1, l2, l1, Library.setUser, emptyLibrary]
  let l3 : Library := { l2 with objects := l2.objects.set (ins 2).fresh (some ⟨o, fun y => [(ins 0).newId].any fun g => sanitize g == y⟩) }
  have e3 : libStep sanitize l2 (ins 2) (.d1 (.encrypt (ins 1).text o [])) = (.ok (.d1 (.oid (ins 2).fresh)), l3) := by
    simp only [libStep, Call.token, one_identity (l := l2) rfl u1 rfl (hclock 2 1), step, authenticate, in_all.1, if_true]
    rfl
  have e4 : libStep sanitize l3 (ins 3) (.d1 (.decrypt (ins 1).text (ins 2).fresh)) = (.ok (.d1 (.object o)), l3) := by
    simp only [libStep, Call.token, one_identity (l := l3) rfl u1 rfl (hclock 3 1), step, guarded, authenticate, in_all.2.1, if_true]
    simp [l3, Vault.set, allowed, hid, in_all.2.1, Except.map]
  let l5 : Library := { l3 with index := l3.index.set kw (l3.index kw ++ [sanitize x]) }
  have e5 : libStep sanitize l3 (ins 4) (.index (.add (ins 1).text kw x)) = (.ok (.index .unit), l5) := by
    simp only [libStep, IxCall.token, one_identity (l := l3) rfl u1 rfl (hclock 4 1), ixStep, in_all.2.2, if_true]
    rfl
  have e6 : libStep sanitize l5 (ins 5) (.index (.search (ins 1).text kw)) = (.ok (.index (.ids [sanitize x])), l5) := by
    simp only [libStep, IxCall.token, one_identity (l := l5) rfl u1 rfl (hclock 5 1), ixStep, in_all.2.2, if_true]
    simp [l5, ixEffect, Index.set, l3, l2, l1, Library.setUser, emptyLibrary, Except.map]
  let l7 : Library := { l5 with tokens := [⟨(ins 6).token, b, (ins 6).issued + hour⟩] }
  have e7 : libStep sanitize l5 (ins 6) (.createToken b) = (.ok (.token (ins 6).token), l7) := rfl
  have e8 : libStep sanitize l7 (ins 7) (.tokenContents (ins 6).token) = (.ok (.contents b), l7) := by
    simp [libStep, l7, hclock 7 6]
  constructor
  · simp only [tour, Client.Careful]
    rw [e1]; simp only [Client.Careful]
    rw [e2]; simp only [Client.Careful]
    rw [e3]; simp only [Client.Careful]
    rw [e4, e5, e6, e7]; simp only [Client.Careful]
    refine ⟨⟨by simp [LibCall.text], by simp, by simp⟩, ⟨by simp [LibCall.text], by simp, ?_⟩, ⟨?_, by simp, by simp⟩, ⟨?_, by simp, by simp⟩,
      ⟨?_, by simp, by simp⟩, ⟨?_, by simp, by simp⟩, ⟨by simp [LibCall.text], by simp, by simp⟩, ⟨by simp [LibCall.text], ?_, by simp⟩, trivial⟩
    · rintro uid p u (h | h) hu
      · cases h
        rw [u1] at hu
        cases hu
        rfl
      · cases h
    all_goals first
      | (rintro t ht; cases ht; exact ⟨_, List.mem_singleton.mpr rfl, rfl⟩)
  · simp only [tour, Client.play]
    rw [e1]; simp only [Client.play]
    rw [e2]; simp only [Client.play]
    rw [e3]; simp only [Client.play]
    rw [e4, e5, e6, e7]; simp only [Client.play]
    rw [e8]

/-- At most `n` calls, with these keywords. -/
def AtMost {α : Type} (K : List GoString) : Nat → Client α → Prop
  | _, .done _ => True
  | 0, .call _ _ => False
  | n + 1, .call c k => (∀ kw ∈ c.keyword, kw ∈ K) ∧ ∀ r, AtMost K n (k r)

theorem AtMost.calls {α : Type} {K : List GoString} {n : Nat} {p : Client α} (h : AtMost K n p) (w : World) :
    (clientCalls P d i s fuel env p w).length ≤ n ∧ ∀ c ∈ clientCalls P d i s fuel env p w, ∀ kw ∈ c.keyword, kw ∈ K := by
  induction n generalizing p w with
  | zero =>
    cases p with
    | done a => exact ⟨Nat.le_refl _, fun c hc => by simp [clientCalls] at hc⟩
    | call c k => exact h.elim
  | succ n ih =>
    cases p with
    | done a => exact ⟨Nat.zero_le _, fun c hc => by simp [clientCalls] at hc⟩
    | call c k =>
      obtain ⟨h1, h2⟩ := h
      obtain ⟨h3, h4⟩ := ih (h2 _) _
      refine ⟨Nat.succ_le_succ h3, fun c' hc' => ?_⟩
      rcases List.mem_cons.mp hc' with rfl | hc'
      · exact h1
      · exact h4 c' hc'

theorem tour_atMost (o : Object) (kw x : GoString) (b : NBytes) : AtMost [kw] 8 (tour o kw x b) := by
  refine ⟨by simp [LibCall.keyword], fun r => ?_⟩
  beta_reduce
  split
  swap; · trivial
  refine ⟨by simp [LibCall.keyword], fun r => ?_⟩
  beta_reduce
  split
  swap; · trivial
  refine ⟨by simp [LibCall.keyword], fun r => ?_⟩
  beta_reduce
  split
  swap; · trivial
  refine ⟨by simp [LibCall.keyword], fun r => ⟨by simp [LibCall.keyword, IxCall.keyword], fun r => ⟨by simp [LibCall.keyword, IxCall.keyword], fun r =>
    ⟨by simp [LibCall.keyword], fun r => ?_⟩⟩⟩⟩
  beta_reduce
  split
  swap; · trivial
  exact ⟨by simp [LibCall.keyword], fun _ => trivial⟩

theorem clientIns_clock {α : Type} (p : Client α) (w : World) (n : Nat) : (∃ t, (clientIns P d i s fuel env p w n).now = (env.now t).ns) ∧
    ∃ t, (clientIns P d i s fuel env p w n).issued = (env.now t).ns := by
  induction p generalizing w n with
  | done a => exact ⟨⟨_, rfl⟩, _, rfl⟩
  | call c k ih =>
    cases n with
    | zero =>
      refine ⟨⟨_, rfl⟩, ?_⟩
      cases c <;> exact ⟨_, rfl⟩
    | succ n => exact ih _ _ _

include L in
/-- C88 on a whole use of the library, for all keys, all random values and all contents: a user that is made with all scopes logs in and gets back the
object it encrypts, the identifier it adds to the index and the contents of its token.  The clock may do anything within an hour. -/
theorem C88_tour (hd : d.idProvider = s.getIdentity P) (hi : i.idProvider = s.getIdentity P) (hk : i.indexKey.length = 32) (hf : NoFault env)
    (hr : RandOk env) (hclock : ∀ a b, (env.now a).ns ≤ (env.now b).ns + hour) (o : Object) (kw x : GoString) (b : NBytes) (ha : Apart P i [kw] 8)
    (hfuel : 8 < fuel) {w : World} (hw : ∀ x dt, w.store x dt = none) :
    ((clientProg P d i s fuel (tour o kw x b)).run env w).1 =
      .ok [.ok (.d1 (.object o)), .ok (.index (.ids [sanitize x])), .ok (.contents b)] := by
  obtain ⟨hn, hkw⟩ := (tour_atMost o kw x b).calls (P := P) (d := d) (i := i) (s := s) (fuel := fuel) (env := env) w
  obtain ⟨h1, h2⟩ := tour_play (ins := clientIns P d i s fuel env (tour o kw x b) w) (fun m n => by
    obtain ⟨⟨t, ht⟩, -⟩ := clientIns_clock (P := P) (d := d) (i := i) (s := s) (fuel := fuel) (env := env) (tour o kw x b) w m
    obtain ⟨-, t', ht'⟩ := clientIns_clock (P := P) (d := d) (i := i) (s := s) (fuel := fuel) (env := env) (tour o kw x b) w n
    rw [ht, ht']
    exact hclock t t') (sanitize_uuidText _) o kw x b
  have hh := careful_honest L hd hi hk hf hr (by decide) ha hfuel (tour o kw x b) (a := 0) (w := w) (by omega) hkw (libRel_empty hw) h1
  obtain ⟨w', h3, -⟩ := C88_from L hd hi hk hf hr (by decide) ha hfuel (tour o kw x b) (a := 0) (w := w) (by omega) hkw (libRel_empty hw) hh
  rw [h3, h2]

end

/-- The hypotheses of `C88_tour` hold in the toy setting, with keyword `[107]`. -/
example : ∃ (d : D1) (i : SecureIndex) (s : Standalone), d.idProvider = s.getIdentity toyPrims ∧ i.idProvider = s.getIdentity toyPrims ∧
    i.indexKey.length = 32 ∧ (let env : Env := { toyEnv with now := fun _ => ⟨7, 0⟩ }; NoFault env ∧ RandOk env ∧
      ∀ a b, (env.now a).ns ≤ (env.now b).ns + hour) ∧ Apart toyPrims i [[107]] 8 := by
  let s : Standalone := ⟨⟨List.replicate 32 4⟩, ⟨List.replicate 32 5⟩, ⟨List.replicate 32 6⟩⟩
  refine ⟨{ toyD1 with idProvider := s.getIdentity toyPrims }, { toyIndex with idProvider := s.getIdentity toyPrims }, s, rfl, rfl, rfl,
    ⟨toyEnv_noFault, toyEnv_randOk, fun a b => by simp [hour]⟩, ?_⟩
  unfold Apart
  decide +kernel

end D1
