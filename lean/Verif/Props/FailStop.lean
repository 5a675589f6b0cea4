import Verif.Props.NoPanic
import Verif.Props.Linear
import Verif.Props.Concurrent
import Verif.Props.Loud
import Verif.Props.Crash
/-!
# Failures are no worse than crashes: C86

Every call of the library stops at the first request that fails, and reports an error.  So what a failing IO Provider or random source does to
the stored data, a crash of the caller could have done too.
-/
namespace D1
open Spec Prog

/-- The request failed: a write was answered with an error, a read with an error other than "not found", or the random source failed. -/
def Broken : Event → Prop
  | ⟨.put .., r⟩ | ⟨.update .., r⟩ | ⟨.delete .., r⟩ => (r : Except IoErr Unit) ≠ .ok ()
  | ⟨.get .., r⟩ => ∃ e, (r : Except IoErr Bytes) = .error e ∧ e ≠ .notFound
  | ⟨.rand n, r⟩ => (r : Option (BytesN n)) = none
  | ⟨.now, _⟩ => False

/-- The environment without the failures. -/
def Env.mended (env : Env) : Env where
  rand t n := some ((env.rand t n).getD ⟨List.replicate n 0, by simp⟩)
  now := env.now
  fault _ := .none

/-- After a request that failed there is nothing but an error in `X`. -/
def Stops {α : Type} (X : Err → Prop) : Prog α → Prop
  | .op e k => ∀ r, (Broken ⟨e, r⟩ → ∃ x, k r = .err x ∧ X x) ∧ Stops X (k r)
  | _ => True

section
variable {α β : Type} {X Y : Err → Prop}

theorem Stops.mono (h : ∀ e, X e → Y e) {p : Prog α} (hp : Stops X p) : Stops Y p := by
  induction p with
  | op e k ih => exact fun r => ⟨fun hb => (hp r).1 hb |>.imp fun x hx => ⟨hx.1, h x hx.2⟩, ih r (hp r).2⟩
  | _ => trivial

theorem Stops.attempt {p : Prog α} {k : Except Err α → Prog β} (hp : Stops X p) (hk : ∀ a, Stops Y (k (.ok a))) (he : ∀ e, Stops Y (k (.error e)))
    (hx : ∀ e, X e → ∃ x, k (.error e) = .err x ∧ Y x) : Stops Y (p.attempt k) := by
  induction p with
  | ret a => exact hk a
  | err e => exact he e
  | panic => trivial
  | diverge => trivial
  | op e c ih =>
    intro r
    refine ⟨fun hb => ?_, ih r (hp r).2⟩
    obtain ⟨x, h1, h2⟩ := (hp r).1 hb
    obtain ⟨y, h3, h4⟩ := hx x h2
    exact ⟨y, by show (c r).attempt k = _; rw [h1]; exact h3, h4⟩

theorem Stops.bind {p : Prog α} {k : α → Prog β} (hp : Stops X p) (hk : ∀ a, Stops X (k a)) : Stops X (p.bind k) := by
  rw [bind_eq_attempt]
  exact Stops.attempt hp hk (fun _ => trivial) fun e h => ⟨e, rfl, h⟩

theorem Stops.mapErr {p : Prog α} (hp : Stops (fun _ => True) p) (e : Err) : Stops (fun _ => True) (p.mapErr e) :=
  Stops.attempt hp (fun _ => trivial) (fun _ => trivial) fun _ _ => ⟨e, rfl, trivial⟩

theorem Stops.ret (a : α) : Stops X (.ret a) := trivial
theorem Stops.ofExcept (x : Except Err α) : Stops X (Prog.ofExcept x) := by cases x <;> trivial
theorem Stops.ofPanic (x : Option α) : Stops X (Prog.ofPanic x) := by cases x <;> trivial

theorem Stops.rand (h : X .rand) (n : Nat) : Stops X (randBytes n) := fun r => by
  cases r with
  | none => exact ⟨fun _ => ⟨_, rfl, h⟩, trivial⟩
  | some b => exact ⟨(fun hb => by cases hb), trivial⟩

theorem Stops.now : Stops X timeNow := fun _ => ⟨fun h => h.elim, trivial⟩

theorem Stops.ioGet {f : IoErr → Err} (h : ∀ e, e ≠ .notFound → X (f e)) (id : Bytes) (dt : DataType) : Stops X (ioGet f id dt) := fun r => by
  cases r with
  | error e => exact ⟨fun ⟨e', h1, h2⟩ => by cases h1; exact ⟨_, rfl, h _ h2⟩, trivial⟩
  | ok b => exact ⟨(fun ⟨e', h1, h2⟩ => by cases h1), trivial⟩

theorem Stops.ioPut (f : IoErr → Err) (id : Bytes) (dt : DataType) (b : Bytes) : Stops (fun _ => True) (ioPut f id dt b) := fun r => by
  cases r with
  | error e => exact ⟨fun _ => ⟨_, rfl, trivial⟩, trivial⟩
  | ok b => exact ⟨fun h => absurd rfl h, trivial⟩

theorem Stops.ioUpdate (f : IoErr → Err) (id : Bytes) (dt : DataType) (b : Bytes) : Stops (fun _ => True) (ioUpdate f id dt b) := fun r => by
  cases r with
  | error e => exact ⟨fun _ => ⟨_, rfl, trivial⟩, trivial⟩
  | ok b => exact ⟨fun h => absurd rfl h, trivial⟩

theorem Stops.ioDelete (f : IoErr → Err) (id : Bytes) (dt : DataType) : Stops (fun _ => True) (ioDelete f id dt) := fun r => by
  cases r with
  | error e => exact ⟨fun _ => ⟨_, rfl, trivial⟩, trivial⟩
  | ok b => exact ⟨fun h => absurd rfl h, trivial⟩

/-- In terms of traces. -/
theorem Stops.yields {p : Prog α} (hp : Stops X p) {tr1 tr2 : List Event} {ev : Event} {out : Outcome α} (h : Yields p (tr1 ++ ev :: tr2) out)
    (hb : Broken ev) : tr2 = [] ∧ ∃ e, out = .err e := by
  induction p generalizing tr1 with
  | op e k ih =>
    obtain ⟨r, tr', h1, h2⟩ := yields_op.mp h
    cases tr1 with
    | nil =>
      obtain ⟨rfl, rfl⟩ := List.cons.inj h1
      obtain ⟨x, hx, -⟩ := (hp r).1 hb
      rw [hx] at h2
      obtain ⟨rfl, rfl⟩ := yields_err.mp h2
      exact ⟨rfl, x, rfl⟩
    | cons a t =>
      obtain ⟨rfl, rfl⟩ := List.cons.inj h1
      exact ih r (hp r).2 h2
  | ret a => exact absurd (yields_ret.mp h).1 (by simp)
  | err a => exact absurd (yields_err.mp h).1 (by simp)
  | panic => cases hl : tr1 ++ ev :: tr2 with
    | nil => simp at hl
    | cons => rw [hl] at h; cases h
  | diverge => cases hl : tr1 ++ ev :: tr2 with
    | nil => simp at hl
    | cons => rw [hl] at h; cases h

/-- One effect: it happens as without failures; or it fails and has not happened, or has happened. -/
theorem exec_mended (env : Env) (w : World) (e : Eff) :
    w.exec env e = w.exec env.mended e ∨
      (Broken ⟨e, (w.exec env e).1⟩ ∧ ((w.exec env e).2 = ⟨w.store, w.t + 1⟩ ∨ (w.exec env e).2 = (w.exec env.mended e).2)) := by
  cases e with
  | rand n =>
    simp only [World.exec, Env.mended, Store.exec, Eff.fail]
    cases hr : env.rand w.t n with
    | none => exact .inr ⟨by cases env.fault w.t <;> rfl, .inl (by cases env.fault w.t <;> rfl)⟩
    | some b => exact .inl (by cases env.fault w.t <;> rfl)
  | now =>
    simp only [World.exec, Env.mended, Store.exec, Eff.fail]
    exact .inl (by cases env.fault w.t <;> rfl)
  | get id dt =>
    simp only [World.exec, Env.mended, Store.exec, Eff.fail]
    cases env.fault w.t with
    | none => exact .inl rfl
    | before => exact .inr ⟨⟨_, rfl, by simp⟩, .inl rfl⟩
    | after => exact .inr ⟨⟨_, rfl, by simp⟩, .inr rfl⟩
  | put id dt b =>
    simp only [World.exec, Env.mended, Store.exec, Eff.fail]
    cases env.fault w.t with
    | none => exact .inl rfl
    | before => exact .inr ⟨(fun h => nomatch h), .inl rfl⟩
    | after => exact .inr ⟨(fun h => nomatch h), .inr rfl⟩
  | update id dt b =>
    simp only [World.exec, Env.mended, Store.exec, Eff.fail]
    cases env.fault w.t with
    | none => exact .inl rfl
    | before => exact .inr ⟨(fun h => nomatch h), .inl rfl⟩
    | after => exact .inr ⟨(fun h => nomatch h), .inr rfl⟩
  | delete id dt =>
    simp only [World.exec, Env.mended, Store.exec, Eff.fail]
    cases env.fault w.t with
    | none => exact .inl rfl
    | before => exact .inr ⟨(fun h => nomatch h), .inl rfl⟩
    | after => exact .inr ⟨(fun h => nomatch h), .inr rfl⟩

/-- A run with failures is a run without failures, or it reports an error and leaves what some crash leaves. -/
theorem Stops.mended {p : Prog α} (hp : Stops X p) (env : Env) (n : Nat) (w : World) :
    p.runN env n w = p.runN env.mended n w ∨
      ∃ m ≤ n, ∃ e, (p.runN env n w).1 = some (.err e) ∧ (p.runN env n w).2.store = (p.runN env.mended m w).2.store := by
  induction p generalizing n w with
  | op e k ih =>
    cases n with
    | zero => exact .inl rfl
    | succ n =>
      rw [runN_succ_op, runN_succ_op]
      rcases exec_mended env w e with h | ⟨hb, h⟩
      · rw [h]
        refine (ih _ (hp _).2 n _).imp_right ?_
        rintro ⟨m, hm, x, h1, h2⟩
        exact ⟨m + 1, by omega, x, h1, by rw [runN_succ_op]; exact h2⟩
      · obtain ⟨x, hx, -⟩ := (hp _).1 hb
        right
        rw [hx, runN_err]
        rcases h with h | h
        · exact ⟨0, by omega, x, rfl, by rw [h]; rfl⟩
        · refine ⟨1, by omega, x, rfl, ?_⟩
          rw [runN_succ_op, h]
          cases hk : k (w.exec env.mended e).1 <;> rfl
  | _ => exact .inl (by simp)

end

/-! ## The library -/

section
variable {P : Prims} {d : D1} {i : SecureIndex} {s : Standalone}

local notation "ST" => Stops (fun _ => True)

theorem Stops.newV4 : ST newV4 := .bind (.rand trivial _) fun _ => trivial

theorem Stops.gcmEncrypt (p a k : Bytes) : ST (gcmEncrypt P p a k) := by
  unfold D1.gcmEncrypt
  split
  · trivial
  · exact .bind (.rand trivial _) fun _ => trivial

theorem Stops.encrypt (c : Cryptor) (p a : J) : ST (c.encrypt P p a) :=
  .bind (.rand trivial _) fun _ => .bind (.gcmEncrypt _ _ _) fun _ => .bind (.ofExcept _) fun _ => trivial

theorem Stops.getUser (uid : GoString) : ST (s.getUser P uid) :=
  .bind (.ioGet (fun _ _ => trivial) _ _) fun b => by
    cases (P.unmarshal b).bind SealedUser.ofJ with
    | none => trivial
    | some _ => exact .ofExcept _

theorem Stops.getGroup (gid : GoString) : ST (s.getGroup P gid) :=
  .bind (.ioGet (fun _ _ => trivial) _ _) fun b => by
    cases (P.unmarshal b).bind SealedGroup.ofJ with
    | none => trivial
    | some _ => exact .ofExcept _

theorem Stops.putUser (uid : GoString) (u : User) (up : Bool) : ST (s.putUser P uid u up) :=
  .bind (.bind (.encrypt _ _ _) fun _ => trivial) fun _ => by
    cases up
    · exact .ioPut _ _ _ _
    · exact .ioUpdate _ _ _ _

theorem Stops.putGroup (gid : GoString) (g : Group) : ST (s.putGroup P gid g) :=
  .bind (.bind (.encrypt _ _ _) fun _ => trivial) fun _ => .ioPut _ _ _ _

theorem Stops.fetchGroups (gs : List GoString) : ST (s.fetchGroups P gs) := by
  induction gs with
  | nil => trivial
  | cons g r ih => exact .bind (.getGroup g) fun _ => .bind ih fun _ => trivial

theorem Stops.tokenUnseal (t : SealedToken) (c : Cryptor) : ST (t.unseal P c) :=
  .bind .now fun now => by
    split
    · trivial
    · exact .bind (.ofExcept _) fun _ => trivial

/-- `GetIdentity` of Standalone stops at the first failure. -/
theorem Stops.getIdentity (t : GoString) : ST (s.getIdentity P t) := by
  unfold Standalone.getIdentity
  split
  · trivial
  · exact .attempt (.tokenUnseal _ _) (fun _ => .bind (.getUser _) fun _ => .bind (.fetchGroups _) fun _ => trivial) (fun _ => trivial)
      fun _ _ => ⟨_, rfl, trivial⟩

theorem Stops.generatePassword : ST (generatePassword P) :=
  .bind (.rand trivial _) fun _ => .bind (.rand trivial _) fun _ => trivial

theorem Stops.authenticate (u : User) (p : GoString) : ST (u.authenticate P p) :=
  .bind (.ofPanic _) fun ok => by cases ok <;> trivial

theorem Stops.checkMembership (y : Identity) (gs : List GoString) : ST (checkMembership y gs) := by
  unfold D1.checkMembership
  split <;> trivial

theorem stops_dirProg (c : DirCall) : ST (dirProg P s c) := by
  cases c with
  | newUser sc =>
    exact .bind (.bind .newV4 fun _ => .bind (.bind .generatePassword fun _ => (.ret _)) fun _ => .bind (.putUser _ _ _) fun _ => (.ret _)) fun _ => (.ret _)
  | loginUser u p =>
    exact .bind (.bind (.mapErr (.getUser _) _) fun _ => .bind (.mapErr (.authenticate _ _) _) fun _ => .bind (.bind .now fun _ => (.ret _)) fun _ =>
      .bind (.mapErr (.bind (.encrypt _ _ _) fun _ => (.ret _)) _) fun _ => (.ret _)) fun _ => (.ret _)
  | changePassword u p =>
    exact .bind (.bind (.mapErr (.getUser _) _) fun _ => .bind (.mapErr (.bind (.authenticate _ _) fun _ => .bind .generatePassword fun _ =>
      (.ret _)) _) fun _ => .bind (.putUser _ _ _) fun _ => (.ret _)) fun _ => (.ret _)
  | newGroup t sc =>
    exact .bind (.bind (.getIdentity _) fun _ => .bind .newV4 fun _ => .bind (.putGroup _ _) fun _ => .bind (.getUser _) fun _ =>
      .bind (.ofPanic _) fun _ => .bind (.putUser _ _ _) fun _ => (.ret _)) fun _ => (.ret _)
  | addUser t u gs =>
    exact .bind (.bind (.getIdentity _) fun _ => .bind (.checkMembership _ _) fun _ => .bind (.getUser _) fun _ => .bind (.ofPanic _) fun _ =>
      .putUser _ _ _) fun _ => (.ret _)
  | removeUser t u gs =>
    exact .bind (.bind (.getIdentity _) fun _ => .bind (.checkMembership _ _) fun _ => .bind (.getUser _) fun _ => .putUser _ _ _) fun _ => (.ret _)
  | deleteUser t u => exact .bind (.bind (.getIdentity _) fun _ => .ioDelete _ _ _) fun _ => (.ret _)
  | getIdentity t => exact .bind (.getIdentity _) fun _ => (.ret _)

theorem Stops.verifyAccess (hd : ∀ t, ST (d.idProvider t)) (t : GoString) (sc : Scope) : ST (d.verifyAccess t sc) :=
  .attempt (hd t) (fun y => by simp only; split <;> trivial) (fun _ => trivial) fun _ _ => ⟨_, rfl, trivial⟩

theorem Stops.getSealedAccess (oid : Oid) : Stops (· ≠ .accessNotFound) (getSealedAccess P oid) :=
  .bind (.ioGet (fun e he => by cases e <;> simp [onNotFound] at he ⊢) _ _) fun b => by
    cases (P.unmarshal b).bind (SealedAccess.ofJ P) <;> trivial

theorem Stops.getSealedAccess' (oid : Oid) : ST (D1.getSealedAccess P oid) := (Stops.getSealedAccess oid).mono fun _ _ => trivial

theorem Stops.getSealedObject (oid : Oid) : ST (getSealedObject P oid) :=
  .bind (.ioGet (fun _ _ => trivial) _ _) fun b => by
    cases (P.unmarshal b).bind (SealedObject.ofJ P) <;> trivial

theorem Stops.putSealedAccess (a : SealedAccess) (up : Bool) : ST (putSealedAccess a up) := by
  cases up
  · exact .ioPut _ _ _ _
  · exact .ioUpdate _ _ _ _

theorem Stops.putSealedObject (a : SealedObject) (up : Bool) : ST (putSealedObject a up) := by
  cases up
  · exact .ioPut _ _ _ _
  · exact .ioUpdate _ _ _ _

theorem Stops.objectSeal (o : Object) (oid : Oid) (c : Cryptor) : ST (o.seal P oid c) := .bind (.encrypt _ _ _) fun _ => trivial
theorem Stops.accessSeal (a : Access) (oid : Oid) (c : Cryptor) : ST (a.seal P oid c) := .bind (.encrypt _ _ _) fun _ => trivial

theorem stops_callProg (hd : ∀ t, ST (d.idProvider t)) (c : Call) : ST (callProg P d c) := by
  cases c with
  | encrypt t o gs =>
    exact .bind (.bind (.verifyAccess hd _ _) fun _ => .bind .newV4 fun _ => .bind (.objectSeal _ _ _) fun _ => .bind (.ofPanic _) fun _ =>
      .bind (.accessSeal _ _ _) fun _ => .bind (.putSealedObject _ _) fun _ => .bind (.putSealedAccess _ _) fun _ => trivial) fun _ => trivial
  | update t oid o =>
    exact .bind (.bind (.verifyAccess hd _ _) fun _ => .bind (.getSealedAccess' _) fun _ => .bind (.ofExcept _) fun _ => .bind (.objectSeal _ _ _) fun _ =>
      .bind (.accessSeal _ _ _) fun _ => .bind (.putSealedObject _ _) fun _ => .putSealedAccess _ _) fun _ => trivial
  | decrypt t oid =>
    exact .bind (.bind (.verifyAccess hd _ _) fun _ => .bind (.getSealedAccess' _) fun _ => .bind (.ofExcept _) fun _ => .bind (.getSealedObject _) fun _ =>
      .ofExcept _) fun _ => trivial
  | delete t oid =>
    refine .bind (.bind (.verifyAccess hd _ _) fun _ => .attempt (.getSealedAccess _) (fun _ => .bind (.ofExcept _) fun _ => .bind (.ioDelete _ _ _) fun _ =>
      .ioDelete _ _ _) (fun e => ?_) fun e he => ?_) fun _ => trivial
    · cases e <;> trivial
    · cases e <;> first | exact absurd rfl he | exact ⟨_, rfl, trivial⟩
  | getGroups t oid =>
    exact .bind (.bind (.verifyAccess hd _ _) fun _ => .bind (.getSealedAccess' _) fun _ => .bind (.ofExcept _) fun _ => trivial) fun _ => trivial
  | addGroups t oid gs =>
    exact .bind (.bind (.verifyAccess hd _ _) fun _ => .bind (.getSealedAccess' _) fun _ => .bind (.ofExcept _) fun _ => .bind (.ofPanic _) fun _ =>
      .bind (.accessSeal _ _ _) fun _ => .putSealedAccess _ _) fun _ => trivial
  | removeGroups t oid gs =>
    exact .bind (.bind (.verifyAccess hd _ _) fun _ => .bind (.getSealedAccess' _) fun _ => .bind (.ofExcept _) fun _ =>
      .bind (.accessSeal _ _ _) fun _ => .putSealedAccess _ _) fun _ => trivial
  | authorize t oid =>
    exact .bind (.bind (.verifyAccess hd _ _) fun _ => .bind (.getSealedAccess' _) fun _ => .bind (.ofExcept _) fun _ => trivial) fun _ => trivial

theorem Stops.ixVerify (hi : ∀ t, ST (i.idProvider t)) (t : GoString) : ST (i.verifyAccess t) :=
  .attempt (hi t) (fun y => by simp only; split <;> trivial) (fun _ => trivial) fun _ _ => ⟨_, rfl, trivial⟩

theorem Stops.tagger (kw : GoString) : ST (i.getTaggerAndCryptor P kw) :=
  .bind (.ofPanic _) fun _ => .bind (.ofPanic _) fun _ => .bind (.ofExcept _) fun _ => .bind (.ofExcept _) fun _ => trivial

theorem Stops.getNextNode (n : Node) (tg : Tagger) (c : Cryptor) : Stops (· ≠ .nodeNotFound) (getNextNode P n tg c) :=
  .bind (.ofPanic _) fun _ => .bind (.bind (.ioGet (fun e he => by cases e <;> simp [onNotFound] at he ⊢) _ _) fun b => by
    cases (P.unmarshal b).bind SealedNode.ofJ <;> trivial) fun _ => .ofExcept _

/-- Going on to the next node: handlers treat no error specially but "not found". -/
theorem Stops.next {α : Type} {n : Node} {tg : Tagger} {c : Cryptor} {k : Except Err Node → Prog α} (hk : ∀ a, ST (k (.ok a))) (h0 : ST (k (.error .nodeNotFound)))
    (he : ∀ e, e ≠ .nodeNotFound → k (.error e) = .err e) : ST ((D1.getNextNode P n tg c).attempt k) :=
  .attempt (.getNextNode _ _ _) hk (fun e => by
    by_cases h : e = .nodeNotFound
    · rw [h]; exact h0
    · rw [he e h]; trivial) fun e h => ⟨e, he e h, trivial⟩

theorem Stops.getLastNodeLoop (tg : Tagger) (c : Cryptor) (fuel : Nat) (n : Node) : ST (getLastNodeLoop P tg c fuel n) := by
  induction fuel generalizing n with
  | zero => trivial
  | succ f ih => exact .next (fun a => ih a) trivial fun e he => by cases e <;> first | rfl | exact absurd rfl he

theorem Stops.searchLoop (tg : Tagger) (c : Cryptor) (fuel : Nat) (n : Node) (l : List GoString) : ST (searchLoop P tg c fuel n l) := by
  induction fuel generalizing n l with
  | zero => trivial
  | succ f ih => exact .next (fun a => ih a _) trivial fun e he => by cases e <;> first | rfl | exact absurd rfl he

theorem Stops.nodeSeal (n : Node) (l : Bytes) (c : Cryptor) : ST (n.seal P l c) := .bind (.encrypt _ _ _) fun _ => trivial

theorem Stops.putSealedNode (l : Bytes) (n : SealedNode) (up : Bool) : ST (putSealedNode l n up) := by
  cases up
  · exact .ioPut _ _ _ _
  · exact .ioUpdate _ _ _ _

theorem Stops.deleteNode (l : Bytes) (n : Node) (tg : Tagger) (c : Cryptor) : ST (deleteNode P l n tg c) :=
  .next (fun a => .bind (.nodeSeal _ _ _) fun _ => .bind (.putSealedNode _ _ _) fun _ => .bind (.ofPanic _) fun _ => .ioDelete _ _ _) (.ioDelete _ _ _)
    fun e he => by cases e <;> first | rfl | exact absurd rfl he

theorem Stops.deleteLoop (tg : Tagger) (c : Cryptor) (id : GoString) (fuel : Nat) (n : Node) : ST (deleteLoop P tg c id fuel n) := by
  induction fuel generalizing n with
  | zero => trivial
  | succ f ih =>
    refine .next (fun a => ?_) trivial fun e he => by cases e <;> first | rfl | exact absurd rfl he
    simp only
    split
    · exact .bind (.ofPanic _) fun _ => .bind (.deleteNode _ _ _ _) fun _ => ih _
    · exact ih _

theorem stops_ixProg (hi : ∀ t, ST (i.idProvider t)) (fuel : Nat) (c : IxCall) : ST (ixProg P i fuel c) := by
  cases c with
  | add t kw x =>
    exact .bind (.bind (.ixVerify hi _) fun _ => .bind (.tagger _) fun _ => .bind (.getLastNodeLoop _ _ _ _) fun _ => .bind (.ofPanic _) fun _ =>
      .bind (.nodeSeal _ _ _) fun _ => .putSealedNode _ _ _) fun _ => trivial
  | search t kw => exact .bind (.bind (.ixVerify hi _) fun _ => .bind (.tagger _) fun _ => .searchLoop _ _ _ _ _) fun _ => trivial
  | delete t kw x => exact .bind (.bind (.ixVerify hi _) fun _ => .bind (.tagger _) fun _ => .deleteLoop _ _ _ _ _) fun _ => trivial

theorem stops_apiProg (hd : ∀ t, ST (d.idProvider t)) (hi : ∀ t, ST (i.idProvider t)) (c : ApiCall) : ST (apiProg P d i s c) := by
  cases c with
  | d1 c => exact .bind (stops_callProg hd c) fun _ => trivial
  | createToken p => exact .bind (.bind (.bind .now fun _ => trivial) fun _ => .bind (.encrypt _ _ _) fun _ => trivial) fun _ => trivial
  | tokenContents t => exact .bind (.bind (.tokenUnseal _ _) fun _ => trivial) fun _ => trivial
  | index fuel c => exact .bind (stops_ixProg hi fuel c) fun _ => trivial
  | dir c => exact .bind (stops_dirProg c) fun _ => trivial

end

/-! ## Concurrent calls -/

/-- The same environment, but effect number `t` gets the answers of moment `f t`. -/
def Env.at (env : Env) (f : Nat → Nat) : Env := ⟨fun t => env.rand (f t), fun t => env.now (f t), fun t => env.fault (f t)⟩

section
variable {α : Type}

theorem exec_agree {env env' : Env} {w : World} (h1 : env.rand w.t = env'.rand w.t) (h2 : env.now w.t = env'.now w.t)
    (h3 : env.fault w.t = env'.fault w.t) (e : Eff) : w.exec env e = w.exec env' e := by
  simp only [World.exec, h1, h2, h3]

/-- Only what the environment answers from now on matters. -/
theorem sched_agree {env env' : Env} (sch : List Nat) (w : World) (ps : List (Prog α))
    (h : ∀ t, w.t ≤ t → env.rand t = env'.rand t ∧ env.now t = env'.now t ∧ env.fault t = env'.fault t) :
    sched env sch w ps = sched env' sch w ps ∧ commits env sch w ps = commits env' sch w ps := by
  induction sch generalizing w ps with
  | nil => exact ⟨rfl, rfl⟩
  | cons j r ih =>
    simp only [sched, commits]
    cases ps[j]? with
    | none => exact ih w ps h
    | some p =>
      cases p with
      | op e k =>
        obtain ⟨h1, h2, h3⟩ := h w.t le_rfl
        have he := exec_agree h1 h2 h3 e
        obtain ⟨i1, i2⟩ := ih (w.exec env e).2 (ps.set j (k (w.exec env e).1)) fun t ht => h t (by rw [exec_t] at ht; omega)
        simp only [← he]
        exact ⟨i1, by rw [i2]⟩
      | _ => exact ih w ps h

/-- The effect depends on the time only through the environment. -/
theorem exec_shift (env : Env) {w w0 : World} (hst : w0.store = w.store) {f : Nat → Nat} (hf : f w0.t = w.t) (e : Eff) :
    w0.exec (env.at f) e = ((w.exec env e).1, ⟨(w.exec env e).2.store, w0.t + 1⟩) := by
  simp only [World.exec, Env.at, hf, hst]
  cases env.fault w.t <;> rfl

/-- What is left of the reports when calls that report an error are taken to have crashed: either they report nothing, or they were done and
crashed before they could report `o`. -/
inductive Thinned : List (Nat × Outcome α) → List (Nat × Outcome α) → Prop
  | nil : Thinned [] []
  | same (x : Nat × Outcome α) {a b} : Thinned a b → Thinned (x :: a) (x :: b)
  | drop (j : Nat) (e : Err) {a b} : Thinned a b → Thinned a ((j, .err e) :: b)
  | late (j : Nat) (e : Err) (o : Outcome α) {a b} : Thinned a b → Thinned ((j, o) :: a) ((j, .err e) :: b)

theorem Stops.sched_aux (env : Env) (sch : List Nat) (w w0 : World) (hst : w0.store = w.store) (ps qs : List (Prog α))
    (hlen : ps.length = qs.length) (hp : ∀ (j : Nat) p, ps[j]? = some p → Stops (fun _ => True) p)
    (hq : ∀ j : Nat, ps[j]? = qs[j]? ∨ ∃ e, ps[j]? = some (Prog.err e)) :
    ∃ f sch', (∀ t, w0.t ≤ t → w.t ≤ f t ∧ f t < f (t + 1)) ∧ sch'.Sublist sch ∧
      (sched (env.mended.at f) sch' w0 qs).1.store = (sched env sch w ps).1.store ∧
      Thinned (commits (env.mended.at f) sch' w0 qs) (commits env sch w ps) := by
  induction sch generalizing w w0 ps qs with
  | nil => exact ⟨fun t => w.t + (t - w0.t), [], (fun t ht => by simp only; omega), List.Sublist.refl _, hst, .nil⟩
  | cons j r ih =>
    have skip : sched env (j :: r) w ps = sched env r w ps → commits env (j :: r) w ps = commits env r w ps →
        ∃ f sch', (∀ t, w0.t ≤ t → w.t ≤ f t ∧ f t < f (t + 1)) ∧ sch'.Sublist (j :: r) ∧
      (sched (env.mended.at f) sch' w0 qs).1.store = (sched env (j :: r) w ps).1.store ∧
      Thinned (commits (env.mended.at f) sch' w0 qs) (commits env (j :: r) w ps) := by
      intro h1 h2
      obtain ⟨f, sch', a, b, c⟩ := ih w w0 hst ps qs hlen hp hq
      rw [h1, h2]
      exact ⟨f, sch', a, b.cons _, c⟩
    cases hj : ps[j]? with
    | none => exact skip (by simp only [sched, hj]) (by simp only [commits, hj])
    | some p =>
      cases p with
      | op e k =>
        have hlt : j < ps.length := (List.getElem?_eq_some_iff.mp hj).1
        have hqj : qs[j]? = some (.op e k) := by
          rcases hq j with h | ⟨x, h⟩
          · rw [← h, hj]
          · rw [hj] at h; cases h
        have next : ∀ (r1 : e.Resp), ∀ (i : Nat) p, (ps.set j (k r1))[i]? = some p → Stops (fun _ => True) p := by
          intro r1 i p h
          by_cases hij : j = i
          · subst hij
            rw [List.getElem?_set_self hlt] at h
            cases h
            exact (hp j _ hj r1).2
          · rw [List.getElem?_set_ne hij] at h
            exact hp i p h
        have hs1 : sched env (j :: r) w ps = sched env r (w.exec env e).2 (ps.set j (k (w.exec env e).1)) := by simp only [sched, hj]
        have hc1 : commits env (j :: r) w ps = (match (k (w.exec env e).1).outcome with
            | some o => (j, o) :: commits env r (w.exec env e).2 (ps.set j (k (w.exec env e).1))
            | none => commits env r (w.exec env e).2 (ps.set j (k (w.exec env e).1))) := by simp only [commits, hj]; rfl
        rw [hs1, hc1]
        -- the effect also happens without failures, at the same moment
        have step : ∀ (f' : Nat → Nat) (sch'' : List Nat), ∃ f : Nat → Nat, f w0.t = w.t ∧ (∀ t, w0.t + 1 ≤ t → f t = f' t) ∧
            sched (env.mended.at f) (j :: sch'') w0 qs =
              sched (env.mended.at f') sch'' ⟨(w.exec env.mended e).2.store, w0.t + 1⟩ (qs.set j (k (w.exec env.mended e).1)) ∧
            commits (env.mended.at f) (j :: sch'') w0 qs = (match (k (w.exec env.mended e).1).outcome with
              | some o => (j, o) :: commits (env.mended.at f') sch'' ⟨(w.exec env.mended e).2.store, w0.t + 1⟩ (qs.set j (k (w.exec env.mended e).1))
              | none => commits (env.mended.at f') sch'' ⟨(w.exec env.mended e).2.store, w0.t + 1⟩ (qs.set j (k (w.exec env.mended e).1))) := by
          intro f' sch''
          refine ⟨fun t => if t ≤ w0.t then w.t else f' t, by simp, fun t ht => if_neg (by omega), ?_⟩
          have he := exec_shift env.mended hst (f := fun t => if t ≤ w0.t then w.t else f' t) (by simp) e
          obtain ⟨c1, c2⟩ := sched_agree (env := env.mended.at fun t => if t ≤ w0.t then w.t else f' t) (env' := env.mended.at f') sch''
            ⟨(w.exec env.mended e).2.store, w0.t + 1⟩ (qs.set j (k (w.exec env.mended e).1)) (fun t ht => by
              simp only at ht
              simp only [Env.at, if_neg (show ¬ t ≤ w0.t by omega), and_self])
          constructor
          · simp only [sched, hqj, he, c1]
          · simp only [commits, hqj, he, c2]
            rfl
        have mono : ∀ {f f' : Nat → Nat}, f w0.t = w.t → (∀ t, w0.t + 1 ≤ t → f t = f' t) →
            (∀ t, w0.t + 1 ≤ t → w.t + 1 ≤ f' t ∧ f' t < f' (t + 1)) → ∀ t, w0.t ≤ t → w.t ≤ f t ∧ f t < f (t + 1) := by
          intro f f' h1 h2 h3 t ht
          rw [h2 (t + 1) (by omega)]
          rcases Nat.eq_or_lt_of_le ht with h | h
          · subst h
            rw [h1]
            have := (h3 (w0.t + 1) (le_refl _)).1
            omega
          · rw [h2 t h]
            have := h3 t h
            omega
        rcases exec_mended env w e with h | ⟨hb, h⟩
        · obtain ⟨f', sch'', a, b, c, dd⟩ := ih (w.exec env e).2 ⟨(w.exec env.mended e).2.store, w0.t + 1⟩ (by rw [h])
            (ps.set j (k (w.exec env e).1)) (qs.set j (k (w.exec env.mended e).1)) (by simp [hlen]) (next _) (fun i => by
              rw [h]
              by_cases hij : j = i
              · subst hij
                rw [List.getElem?_set_self hlt, List.getElem?_set_self (hlen ▸ hlt)]
                exact .inl rfl
              · rw [List.getElem?_set_ne hij, List.getElem?_set_ne hij]
                exact hq i)
          obtain ⟨f, f1, f2, f3, f4⟩ := step f' sch''
          rw [exec_t] at a
          refine ⟨f, j :: sch'', mono f1 f2 a, b.cons₂ _, by rw [f3]; exact c, ?_⟩
          rw [f4, h]
          rw [h] at dd
          cases (k (w.exec env.mended e).1).outcome with
          | none => exact dd
          | some o => exact .same _ dd
        · obtain ⟨x, hx, -⟩ := (hp j _ hj _).1 hb
          rw [hx]
          simp only [Prog.outcome]
          have hset : ∀ (q : List (Prog α)), (∀ i, i ≠ j → q[i]? = qs[i]?) → ∀ i : Nat, (ps.set j (.err x))[i]? = q[i]? ∨ ∃ e, (ps.set j (.err x))[i]? = some (Prog.err e) := by
            intro q h i
            by_cases hij : j = i
            · subst hij
              exact .inr ⟨x, List.getElem?_set_self hlt⟩
            · rw [List.getElem?_set_ne hij, h i (Ne.symm hij)]
              exact hq i
          have nx := next (w.exec env e).1
          rw [hx] at nx
          rcases h with h | h
          · obtain ⟨f', sch'', a, b, c, dd⟩ := ih (w.exec env e).2 w0 (by rw [h]; exact hst) (ps.set j (.err x)) qs (by simp [hlen]) nx (hset qs fun _ _ => rfl)
            rw [exec_t] at a
            exact ⟨f', sch'', fun t ht => ⟨by have := (a t ht).1; omega, (a t ht).2⟩, b.cons _, c, .drop _ _ dd⟩
          · obtain ⟨f', sch'', a, b, c, dd⟩ := ih (w.exec env e).2 ⟨(w.exec env.mended e).2.store, w0.t + 1⟩ (by rw [h]) (ps.set j (.err x))
              (qs.set j (k (w.exec env.mended e).1)) (by simp [hlen]) nx (hset _ fun i hi => List.getElem?_set_ne (Ne.symm hi))
            obtain ⟨f, f1, f2, f3, f4⟩ := step f' sch''
            rw [exec_t] at a
            refine ⟨f, j :: sch'', mono f1 f2 a, b.cons₂ _, by rw [f3]; exact c, ?_⟩
            rw [f4]
            cases (k (w.exec env.mended e).1).outcome with
            | none => exact .drop _ _ dd
            | some o => exact .late _ _ _ dd
      | _ => exact skip (by simp only [sched, hj]) (by simp only [commits, hj])

end

/-! ## C86 -/

/-- A program that stops at the first failure, whatever the answers: there is no further request, and the outcome is an error. -/
def FailStop {α : Type} (p : Prog α) : Prop :=
  ∀ (tr1 tr2 : List Event) ev out, Yields p (tr1 ++ ev :: tr2) out → Broken ev → tr2 = [] ∧ ∃ e, out = .err e

theorem stops_of_failStop {α : Type} {p : Prog α} (h : FailStop p) : Stops (fun _ => True) p := by
  induction p with
  | op e k ih =>
    intro r
    refine ⟨fun hb => ?_, ih r fun tr1 tr2 ev out hy => h (⟨e, r⟩ :: tr1) tr2 ev out (.op e k r _ _ hy)⟩
    obtain ⟨tr, hy⟩ := yields_of_steps (k r) ⟨fun _ _ => none, 0⟩ toyEnv
    obtain ⟨rfl, x, hx⟩ := h [] tr ⟨e, r⟩ _ (.op e k r _ _ hy) hb
    rw [hx] at hy
    cases hk : k r <;> rw [hk] at hy <;> cases hy
    exact ⟨_, rfl, trivial⟩
  | _ => trivial

section
variable {P : Prims} {d : D1} {i : SecureIndex} {s : Standalone}

/-- `GetIdentity` of Standalone is such a program. -/
theorem failStop_standalone (t : GoString) : FailStop (s.getIdentity P t) := fun _ _ _ _ h hb => (Stops.getIdentity t).yields h hb

/-- C86: every call stops at the first request that fails, and reports an error. -/
theorem C86_stops (hd : ∀ t, FailStop (d.idProvider t)) (hi : ∀ t, FailStop (i.idProvider t)) (c : ApiCall) : FailStop (apiProg P d i s c) :=
  fun _ _ _ _ h hb => (stops_apiProg (fun t => stops_of_failStop (hd t)) (fun t => stops_of_failStop (hi t)) c).yields h hb

/-- C86: a call that is cut off anywhere, with any failures on the way, either goes exactly as without the failures, or reports an error and
leaves the store as it would be had there been no failures but a crash. -/
theorem C86_like_a_crash (hd : ∀ t, FailStop (d.idProvider t)) (hi : ∀ t, FailStop (i.idProvider t)) (c : ApiCall) (env : Env) (n : Nat) (w : World) :
    (apiProg P d i s c).runN env n w = (apiProg P d i s c).runN env.mended n w ∨
      ∃ m ≤ n, ∃ e, ((apiProg P d i s c).runN env n w).1 = some (.err e) ∧
        ((apiProg P d i s c).runN env n w).2.store = ((apiProg P d i s c).runN env.mended m w).2.store :=
  (stops_apiProg (fun t => stops_of_failStop (hd t)) (fun t => stops_of_failStop (hi t)) c).mended env n w

/-- C86, concurrent calls: whatever calls with failures do to the store, the same calls do without failures when some are left out at the end,
that is, crash.  The random source and the clock give what they gave at moments in the same order.  All calls that do not report an error report the
same, in the same order; calls that report an error may have been done already (`Thinned`). -/
theorem C86_concurrent {α : Type} (env : Env) (sch : List Nat) (w : World) (ps : List (Prog α)) (hp : ∀ p ∈ ps, FailStop p) :
    ∃ f sch', NoFault (env.mended.at f) ∧ RandOk (env.mended.at f) ∧ (∀ t, w.t ≤ t → w.t ≤ f t ∧ f t < f (t + 1)) ∧ sch'.Sublist sch ∧
      (sched (env.mended.at f) sch' w ps).1.store = (sched env sch w ps).1.store ∧
      Thinned (commits (env.mended.at f) sch' w ps) (commits env sch w ps) := by
  obtain ⟨f, sch', h⟩ := Stops.sched_aux env sch w w rfl ps ps rfl (fun j p hj => stops_of_failStop (hp p (List.mem_of_getElem? hj))) fun _ => .inl rfl
  exact ⟨f, sch', fun _ => rfl, fun _ _ => rfl, h⟩

/-- C86 for the index: `C32_linearizable` with failures.  `Add`s and `Search`es run concurrently on an IO Provider that may fail, and callers may
crash.  The calls that do not report an error, together with some of the `Add`s that do, took effect in the order in which they ended. -/
theorem C86_index (L : P.Laws) (hk : i.indexKey.length = 32) (hf : ∀ t, FailStop (i.idProvider t)) (hi : IxIdp i) {K : List GoString} {N : Nat}
    (hN : N < 2 ^ 64) (ha : Apart P i K N) {fuel : Nat} (hfuel : N < fuel) (calls : List IxCall) (hc : ∀ c ∈ calls, c.keyword ∈ K) (hnd : NoDelete calls)
    {x : Index} {a : Nat} (haN : a + calls.length ≤ N) {w : World} (h : IxRel P i K N w.store x a) (env : Env) (sch : List Nat) :
    ∃ l x' a', Thinned l (commits env sch w (calls.map (ixProg P i fuel))) ∧ LinRun (IxLin calls) l x x' ∧
      IxRel P i K N (sched env sch w (calls.map (ixProg P i fuel))).1.store x' a' := by
  obtain ⟨f, sch', h1, -, -, -, h2, h3⟩ := C86_concurrent env sch w (calls.map (ixProg P i fuel)) (fun p hp => by
    obtain ⟨c, -, rfl⟩ := List.mem_map.mp hp
    exact fun _ _ _ _ hy hb => (stops_ixProg (fun t => stops_of_failStop (hf t)) fuel c).yields hy hb)
  obtain ⟨x', a', h4, h5, -⟩ := C32_linearizable L hk h1 hi hN ha hfuel calls hc hnd haN h sch'
  exact ⟨_, x', a', h3, h4, h2 ▸ h5⟩

end

/-! ## A concrete case -/

/-- The toy environment with one failure of the IO Provider. -/
def toyFaulty (n : Nat) (f : Fault) : Env := { toyEnv with fault := fun t => if t = n then f else .none }

/-- What is stored of object `nilOid` when `Update` has ended, and whether it reported an error. -/
def updateSeen (env : Env) (n : Nat) : Option Bool × Option Bytes × Option Bytes :=
  let r := (apiProg toyPrims toyD1 toyIndex ⟨⟨[]⟩, ⟨[]⟩, ⟨[]⟩⟩ (.d1 (.update [7] nilOid ⟨some [3], some [4]⟩))).runN env n
    ⟨toyEntryStore nilOid ⟨some [1], some [2]⟩, 0⟩
  (r.1.map fun o => match o with | .err _ => true | _ => false, r.2.store nilOid.1 dtObject, r.2.store nilOid.1 dtAccess)

/-- The second write of `Update` fails: an error is reported, and the records are as after a crash in between, which is neither as before nor as
after the whole call. -/
theorem C86_case : (updateSeen (toyFaulty 6 .before) 9).1 = some true ∧ (updateSeen (toyFaulty 6 .before) 9).2 = (updateSeen toyEnv 6).2 ∧
    (updateSeen toyEnv 6).1 = none ∧ (updateSeen toyEnv 6).2 ≠ (updateSeen toyEnv 0).2 ∧ (updateSeen toyEnv 6).2 ≠ (updateSeen toyEnv 9).2 ∧
    (updateSeen toyEnv 9).1 = some false := by decide +kernel

end D1
