import Verif.Proofs.InStep
import Verif.Props.Library
import Verif.Props.Moments
/-!
# Outsiders learn nothing: C90

Two stores that differ only in the records of one object, whose access list names no outsider in either.  Any calls of the whole library run
concurrently, none of them by an insider on the object, on either store under the same circumstances.  All answers are the same, and so is every
request to the IO Provider: neither the outsiders nor somebody who watches the IO Provider's requests can tell which of the two stores it is.
-/
namespace D1
open Spec Prog

/-- The program of a call, with everything that the caller is told, and the text of the session. -/
def answerProg (P : Prims) (d : D1) (i : SecureIndex) (s : Standalone) : ApiCall → Prog LibRes
  | .d1 c => (callProg P d c).bind fun r => .ret (.d1 r)
  | .createToken p => (d.createToken P p).bind fun t => .ret (.token t)
  | .tokenContents t => (d.getTokenContents P t).bind fun b => .ret (.contents b)
  | .index fuel c => (ixProg P i fuel c).bind fun r => .ret (.index r)
  | .dir (.loginUser u p) => (s.loginUser P u p).bind fun r => .ret (.session r.1 r.2)
  | .dir c => (dirProg P s c).bind fun r => .ret (.dir r)

/-- The stores are the same but for the records of the object. -/
def DifferOnlyIn (oid : Oid) (st st' : Store) : Prop :=
  ∀ x dt, ¬ (x = oid.1 ∧ (dt = dtObject ∨ dt = dtAccess)) → st x dt = st' x dt

/-- The object has an access record that D1 accepts. -/
def HasAccess (P : Prims) (d : D1) (oid : Oid) (st : Store) : Prop := ∃ b a, st oid.1 dtAccess = some b ∧ Accepts P d oid b a

/-- Effects that have nothing to do with objects. -/
def Aside (e : Eff) : Prop := e.dataType ≠ some dtObject ∧ e.dataType ≠ some dtAccess

/-- Effects that do not concern the records of the object. -/
def Elsewhere (oid : Oid) (e : Eff) : Prop := e.dataType = some dtObject ∨ e.dataType = some dtAccess → e.entry ≠ some oid.1

theorem Aside.elsewhere {oid : Oid} {e : Eff} (h : Aside e) : Elsewhere oid e := fun hh => (hh.elim h.1 h.2).elim

section
variable {P : Prims} {d : D1} {i : SecureIndex} {s : Standalone}

theorem aside_rand (n : Nat) : Aside (.rand n) := ⟨by simp [Eff.dataType], by simp [Eff.dataType]⟩
theorem aside_now : Aside .now := ⟨by simp [Eff.dataType], by simp [Eff.dataType]⟩
theorem aside_type {e : Eff} {dt : DataType} (h : e.dataType = some dt) (h1 : dt ≠ dtObject) (h2 : dt ≠ dtAccess) : Aside e := by
  rw [Aside, h]; simp [h1, h2]
theorem aside_user {e : Eff} (h : e.dataType = some dtUser) : Aside e := aside_type h (by decide) (by decide)
theorem aside_group {e : Eff} (h : e.dataType = some dtGroup) : Aside e := aside_type h (by decide) (by decide)
theorem aside_node {e : Eff} (h : e.dataType = some dtNode) : Aside e := aside_type h (by decide) (by decide)

theorem aside_identity (t : GoString) : AllEff Aside (s.getIdentity P t) :=
  allEff_getIdentity aside_now (fun _ => aside_user rfl) (fun _ => aside_group rfl) t

theorem aside_dir (c : DirCall) : AllEff Aside (dirProg P s c) := by
  have u : ∀ {e : Eff}, e.dataType = some dtUser → Aside e := aside_user
  have g : ∀ {e : Eff}, e.dataType = some dtGroup → Aside e := aside_group
  cases c with
  | newUser sc => exact AllEff.bind (allEff_newUser aside_rand (fun _ _ => u rfl) (fun _ _ => u rfl) sc) fun _ => trivial
  | loginUser uid p => exact AllEff.bind (allEff_loginUser aside_rand aside_now (u rfl) p) fun _ => trivial
  | changePassword uid p => exact AllEff.bind (allEff_changeUserPassword aside_rand (u rfl) (fun _ => u rfl) (fun _ => u rfl) p) fun _ => trivial
  | newGroup t sc =>
    exact AllEff.bind (allEff_newGroup aside_rand aside_now (fun _ => u rfl) (fun _ => g rfl) (fun _ _ => u rfl) (fun _ _ => u rfl) (fun _ _ => g rfl) t sc) fun _ => trivial
  | addUser t uid gs =>
    exact AllEff.bind (allEff_addUserToGroups aside_rand aside_now (fun _ => u rfl) (fun _ => g rfl) (fun _ => u rfl) (fun _ => u rfl) t gs) fun _ => trivial
  | removeUser t uid gs =>
    exact AllEff.bind (allEff_removeUserFromGroups aside_rand aside_now (fun _ => u rfl) (fun _ => g rfl) (fun _ => u rfl) (fun _ => u rfl) t gs) fun _ => trivial
  | deleteUser t uid => exact AllEff.bind (allEff_deleteUser aside_now (fun _ => u rfl) (fun _ => g rfl) (u rfl) t) fun _ => trivial
  | getIdentity t => exact AllEff.bind (aside_identity t) fun _ => trivial

/-- Only the calls of D1 have to do with objects. -/
theorem aside_answer (hi : i.idProvider = s.getIdentity P) {c : ApiCall} (hc : ∀ c', c ≠ .d1 c') : AllEff Aside (answerProg P d i s c) := by
  cases c with
  | d1 c => exact absurd rfl (hc c)
  | createToken p =>
    exact AllEff.bind (AllEff.bind (AllEff.bind (allEff_now aside_now) fun _ => trivial) fun _ => AllEff.bind (allEff_encrypt aside_rand _ _ _) fun _ => trivial) fun _ => trivial
  | tokenContents t => exact AllEff.bind (AllEff.bind (allEff_tokenUnseal aside_now _ _) fun _ => trivial) fun _ => trivial
  | index fuel c =>
    have hi' : ∀ t, AllEff Aside (i.idProvider t) := fun t => hi ▸ aside_identity t
    have hn : ∀ e : Eff, e.dataType = some dtNode → Aside e := fun e h => aside_node h
    refine AllEff.bind ?_ fun _ => trivial
    cases c with
    | add t kw x => exact AllEff.bind (allEff_add (hi' _) aside_rand hn _ _ _) fun _ => trivial
    | search t kw => exact AllEff.bind (allEff_search (hi' _) (fun _ => hn _ rfl) _ _) fun _ => trivial
    | delete t kw x => exact AllEff.bind (allEff_delete (hi' _) aside_rand hn _ _ _) fun _ => trivial
  | dir c =>
    have := aside_dir (P := P) (s := s) c
    cases c <;> first
      | exact AllEff.bind (allEff_loginUser aside_rand aside_now (aside_user rfl) _) fun _ => trivial
      | exact AllEff.bind this fun _ => trivial

theorem elsewhere_store {oid : Oid} {st st' : Store} {rnd : (n : Nat) → Option (BytesN n)} {clk : GoTime} {e : Eff} (he : Elsewhere oid e)
    (h : DifferOnlyIn oid st st') : (st.exec rnd clk e).1 = (st'.exec rnd clk e).1 ∧ DifferOnlyIn oid (st.exec rnd clk e).2 (st'.exec rnd clk e).2 := by
  have same : ∀ x dt, Elsewhere oid e → e.dataType = some dt → e.entry = some x → st x dt = st' x dt := by
    intro x dt he h1 h2
    refine h x dt fun hh => he ?_ (by rw [h2, hh.1])
    rw [h1]
    exact hh.2.imp (congrArg some) (congrArg some)
  have set : ∀ x dt v, DifferOnlyIn oid (st.set x dt v) (st'.set x dt v) := by
    intro x dt v y dt' hy
    simp only [Store.set]
    split
    · rfl
    · exact h y dt' hy
  cases e with
  | put x dt b =>
    simp only [Store.exec, ← same x dt he rfl rfl]
    cases st x dt with
    | none => exact ⟨rfl, set _ _ _⟩
    | some _ => exact ⟨rfl, h⟩
  | get x dt =>
    simp only [Store.exec, ← same x dt he rfl rfl]
    cases st x dt <;> exact ⟨rfl, h⟩
  | update x dt b =>
    simp only [Store.exec, ← same x dt he rfl rfl]
    cases st x dt with
    | some _ => exact ⟨rfl, set _ _ _⟩
    | none => exact ⟨rfl, h⟩
  | delete x dt => exact ⟨rfl, set _ _ _⟩
  | rand n => exact ⟨rfl, h⟩
  | now => exact ⟨rfl, h⟩

variable {env : Env} {lo : Nat} {oid : Oid} {out G : GoString → Prop}

/-- What is kept: the stores are the same but for the object, and its access record is accepted in both. -/
def Hidden (P : Prims) (d : D1) (oid : Oid) (st st' : Store) : Prop := DifferOnlyIn oid st st' ∧ HasAccess P d oid st ∧ HasAccess P d oid st'

theorem elsewhere_exec {t : Nat} {st st' : Store} {e : Eff} (he : Elsewhere oid e) (h : Hidden P d oid st st') :
    ((⟨st, t⟩ : World).exec env e).1 = ((⟨st', t⟩ : World).exec env e).1 ∧
      Hidden P d oid ((⟨st, t⟩ : World).exec env e).2.store ((⟨st', t⟩ : World).exec env e).2.store := by
  obtain ⟨h1, h2, h3⟩ := h
  have hf : ∀ st : Store, ((⟨st, t⟩ : World).exec env e).2.store oid.1 dtAccess = st oid.1 dtAccess := by
    intro st
    refine exec_frame fun ht => ?_
    refine he (.inr ?_) ?_ <;> cases e <;> simp_all [Eff.target, Eff.dataType, Eff.entry]
  refine ⟨?_, ?_, ?_, ?_⟩
  · have := (elsewhere_store (rnd := env.rand t) (clk := env.now t) he h1).1
    simp only [World.exec]
    cases env.fault t <;> simp only [this]
  · have := (elsewhere_store (rnd := env.rand t) (clk := env.now t) he h1).2
    simp only [World.exec]
    cases env.fault t <;> first | exact this | exact h1
  · obtain ⟨b, a, hb, ha⟩ := h2
    exact ⟨b, a, (hf st).trans hb, ha⟩
  · obtain ⟨b, a, hb, ha⟩ := h3
    exact ⟨b, a, (hf st').trans hb, ha⟩

/-- In step, with the same requests. -/
abbrev Blind (P : Prims) (d : D1) (s : Standalone) (env : Env) (lo : Nat) (oid : Oid) (out G : GoString → Prop) {α : Type} (R : Outcome α → Outcome α → Prop)
    (p p' : Prog α) : Prop :=
  InStep env lo (fun st st' => Hidden P d oid st st' ∧ ShutOut P d s oid out G st ∧ ShutOut P d s oid out G st') (Hidden P d oid) Eq R p p'

theorem blind_elsewhere {α : Type} {p : Prog α} (hp : AllEff (Elsewhere oid) p) : Blind P d s env lo oid out G (Same Eq) p p :=
  inStep_same (fun _ _ => rfl) (fun _ he _ _ _ _ h => elsewhere_exec he h.1) hp

theorem blind_bind {α β : Type} {Q : α → α → Prop} {Q' : β → β → Prop} {p p' : Prog α} {k k' : α → Prog β} (hp : Blind P d s env lo oid out G (Same Q) p p')
    (hk : ∀ a a', Q a a' → Blind P d s env lo oid out G (Same Q') (k a) (k' a')) : Blind P d s env lo oid out G (Same Q') (p.bind k) (p'.bind k') :=
  InStep.bind hp hk (fun _ => rfl) trivial trivial

/-- The caller is found out in the same way. -/
theorem blind_verifyAccess (hd : d.idProvider = s.getIdentity P) (t : GoString) (sc : Scope) :
    Blind P d s env lo oid out G (Same fun i i' => i = i' ∧ CallerOk P s out G t i) (d.verifyAccess t sc) (d.verifyAccess t sc) := by
  refine (InStep.knowing (J := ShutOut P d s oid out G) (fun _ _ h => h.2.1)
    (blind_elsewhere (allEff_verifyAccess (hd ▸ (aside_identity t).mono fun _ h => h.elsewhere) sc)) (shut_verifyAccess hd t sc)).mono ?_
  rintro (_ | _ | _ | _) (_ | _ | _ | _) h <;> first | exact ⟨h.1, h.2 _ rfl⟩ | exact h

/-- A record that D1 accepts and that does not list the caller. -/
theorem denied (hG : ∀ u, out u → sanitize u = u ∧ ¬ G u) {st : Store} (hs : ShutOut P d s oid out G st) {b : Bytes} {a : Access} (hb : st oid.1 dtAccess = some b)
    (ha : Accepts P d oid b a) {t : GoString} {x : Identity} (hx : CallerOk P s out G t x) (hby : ByOutsider P s out t) (sc : Scope) :
    ∃ sa, (P.unmarshal b).bind (SealedAccess.ofJ P) = some sa ∧ d.authorizeAccess P x sc { sa with oid := oid } = .error .notAuthorized := by
  obtain ⟨sa, h1, h2⟩ := ha
  refine ⟨sa, h1, ?_⟩
  have hl := hs.2 b a hb ⟨sa, h1, h2⟩
  have hu : ({ sa with oid := oid } : SealedAccess).unseal P d.accessCryptor = .ok a := h2
  have hno := refused (d := d) hG hx hby (sc := sc) (sa := { sa with oid := oid }) (fun a' ha' => by rw [hu] at ha'; cases ha'; exact hl) a
  revert hno
  rw [D1.authorizeAccess, hu]
  simp only
  split
  · exact fun h => absurd rfl h
  · exact fun _ => rfl

/-- An outsider gets as far as the access record. -/
theorem blind_access {α : Type} (hG : ∀ u, out u → sanitize u = u ∧ ¬ G u) {t : GoString} {x : Identity} (hx : CallerOk P s out G t x)
    (hby : ByOutsider P s out t) (sc : Scope) {K : Except Err SealedAccess → Prog α}
    (hK : ∀ sa, d.authorizeAccess P x sc sa = .error .notAuthorized → K (.ok sa) = .err .notAuthorized) (he : ∀ e, ∃ o, (K (.error e)).outcome = some o) :
    Blind P d s env lo oid out G (Same Eq) ((getSealedAccess P oid).attempt K) ((getSealedAccess P oid).attempt K) := by
  have self : ∀ e, Blind P d s env lo oid out G (Same Eq) (K (.error e)) (K (.error e)) := by
    intro e
    obtain ⟨o, ho⟩ := he e
    refine InStep.ended ho ho ?_
    cases o <;> first | exact rfl | trivial
  rw [getSealedAccess, Prog.bind_eq, ioGet, op_bind]
  refine ⟨rfl, fun tm st st' _ h => ?_⟩
  obtain ⟨⟨h1, ⟨b, a, hb, ha⟩, ⟨b', a', hb', ha'⟩⟩, hs, hs'⟩ := h
  obtain ⟨sa, e1, e2⟩ := denied hG hs hb ha hx hby sc
  obtain ⟨sa', e1', e2'⟩ := denied hG hs' hb' ha' hx hby sc
  have store : ∀ st : Store, ((⟨st, tm⟩ : World).exec env (.get oid.1 dtAccess)).2.store = st := by
    intro st
    simp only [World.exec, Store.exec]
    cases env.fault tm <;> cases st oid.1 dtAccess <;> rfl
  rw [store, store]
  refine ⟨⟨h1, ⟨b, a, hb, ha⟩, ⟨b', a', hb', ha'⟩⟩, ?_⟩
  simp only [World.exec, Store.exec, hb, hb']
  cases env.fault tm with
  | none =>
    simp only [ret_bind, Prog.attempt, e1, e1', Prog.pure_eq]
    rw [hK _ e2, hK _ e2']
    exact InStep.err (Q := Same Eq) rfl
  | before => exact self _
  | after => exact self _

/-- A call of an outsider on the object. -/
theorem blind_outsider (hG : ∀ u, out u → sanitize u = u ∧ ¬ G u) (hd : d.idProvider = s.getIdentity P) {c : Call} (hc : c.onOid = some oid)
    (hby : ByOutsider P s out c.token) : Blind P d s env lo oid out G (Same Eq) (callProg P d c) (callProg P d c) := by
  have guard : ∀ {α : Type} (t : GoString) (ht : ByOutsider P s out t) (sc : Scope) (K : Access → Prog α),
      Blind P d s env lo oid out G (Same Eq) ((guardProg P d t sc oid).bind K) ((guardProg P d t sc oid).bind K) := by
    intro α t ht sc K
    rw [guardProg, Prog.bind_assoc]
    refine blind_bind (blind_verifyAccess hd t sc) ?_
    rintro x _ ⟨rfl, hx⟩
    have e : ((getSealedAccess P oid).bind fun access => Prog.ofExcept (d.authorizeAccess P x sc access)).bind K =
        (getSealedAccess P oid).attempt fun r => match r with
          | .error e => .err e
          | .ok sa => (Prog.ofExcept (d.authorizeAccess P x sc sa)).bind K := by
      rw [Prog.bind_assoc]
      induction getSealedAccess P oid with
      | op e k ih => simp only [op_bind, Prog.attempt]; congr 1; funext r; exact ih r
      | _ => rfl
    rw [e]
    exact blind_access hG hx ht sc (fun sa h => by simp only [h]; rfl) fun e => ⟨_, rfl⟩
  cases c with
  | encrypt t o gs => cases hc
  | decrypt t o => cases hc; rw [callProg, decrypt_eq, Prog.bind_assoc]; exact guard t hby _ _
  | getGroups t o => cases hc; rw [callProg, getAccessGroups_eq, Prog.bind_assoc]; exact guard t hby _ _
  | authorize t o => cases hc; rw [callProg, authorizeIdentity_eq, Prog.bind_assoc]; exact guard t hby _ _
  | update t o ob => cases hc; rw [callProg, update_eq, Prog.bind_assoc]; exact guard t hby _ _
  | addGroups t o gs => cases hc; rw [callProg, addGroupsToAccess_eq, Prog.bind_assoc]; exact guard t hby _ _
  | removeGroups t o gs => cases hc; rw [callProg, removeGroupsFromAccess_eq, Prog.bind_assoc]; exact guard t hby _ _
  | delete t o =>
    cases hc
    rw [callProg, D1.delete, Prog.bind_eq]
    refine blind_bind (Q := Eq) ?_ fun a a' h => by subst h; exact InStep.ret (Q := Same Eq) rfl
    refine blind_bind (blind_verifyAccess hd t scopeDelete) ?_
    rintro x _ ⟨rfl, hx⟩
    refine blind_access hG hx hby scopeDelete (fun sa h => by simp only [h]; rfl) fun e => ?_
    cases e <;> exact ⟨_, rfl⟩

/-- A call that is not on the object. -/
theorem blind_other (hd : d.idProvider = s.getIdentity P) (hdraw : ∀ t b, lo ≤ t → env.rand t 16 = some b → mkV4 b ≠ oid) {c : Call} (hc : c.onOid ≠ some oid) :
    Blind P d s env lo oid out G (Same Eq) (callProg P d c) (callProg P d c) := by
  have hi : ∀ t, AllEff (Elsewhere oid) (d.idProvider t) := fun t => hd ▸ (aside_identity t).mono fun _ h => h.elsewhere
  have hr : ∀ n, Elsewhere oid (.rand n) := fun n => (aside_rand n).elsewhere
  have other : ∀ {e : Eff} {o : Oid}, e.entry = some o.1 → o ≠ oid → Elsewhere oid e := by
    intro e o h1 h2 _
    rw [h1]
    exact fun h => h2 (Subtype.ext (Option.some.inj h))
  cases ho : c.onOid with
  | some o => exact blind_elsewhere (allEff_call c (hi _) hr fun e dt _ _ h => other (h o ho) fun h => hc (by rw [ho, h]))
  | none =>
    cases c <;> simp only [Call.onOid, reduceCtorEq] at ho
    refine blind_bind (Q := Eq) ?_ fun a a' h => by subst h; exact InStep.ret (Q := Same Eq) rfl
    refine blind_bind (blind_elsewhere (allEff_verifyAccess (hi _) _)) ?_
    rintro x _ rfl
    refine blind_bind (InStep.knowing (J := ShutOut P d s oid out G) (fun _ _ h => h.2.1) (blind_elsewhere (allEff_newV4 hr)) shut_newV4) ?_
    rintro u _ ⟨rfl, hu⟩
    obtain ⟨t, b, h0, hb, rfl⟩ := hu u rfl
    have hne := hdraw t b h0 hb
    refine blind_elsewhere ?_
    simp only [Prog.bind_eq, sealObject_bind, sealAccess_bind]
    exact AllEff.bind (allEff_encrypt hr _ _ _) fun r => AllEff.bind (allEff_ofPanic _) fun a =>
      AllEff.bind (allEff_encrypt hr _ _ _) fun r' => AllEff.bind (allEff_ioPut (other (o := mkV4 b) rfl hne)) fun _ =>
        AllEff.bind (allEff_ioPut (other (o := mkV4 b) rfl hne)) fun _ => trivial

theorem safe_forget {α : Type} {step : Store → (e : Eff) → e.Resp → Store → Prop} {J : Store → Prop} {p : Prog α}
    (h : Safe step J (fun _ => True) (p.bind fun _ => Prog.ret ())) : Safe step J (fun _ => True) p := by
  induction p with
  | op e k ih => exact fun s r s' h1 h2 => ⟨(h s r s' h1 h2).1, ih r (h s r s' h1 h2).2⟩
  | _ => trivial

theorem apiProg_answer (c : ApiCall) : apiProg P d i s c = (answerProg P d i s c).bind fun _ => .ret () := by
  cases c with
  | dir c => cases c <;> simp only [apiProg, answerProg, dirProg, Prog.bind_assoc, ret_bind]
  | _ => simp only [apiProg, answerProg, Prog.bind_assoc, ret_bind]

theorem forall₂_eq {α β : Type} {R : β → β → Prop} (hR : ∀ x y, R x y → x = y) {l l' : List (α × β)}
    (h : List.Forall₂ (fun x y => x.1 = y.1 ∧ R x.2 y.2) l l') : l = l' := by
  induction h with
  | nil => rfl
  | cons h _ ih => rw [ih, Prod.ext h.1 (hR _ _ h.2)]

theorem same_eq {α : Type} {o o' : Outcome α} (h : Same Eq o o') : o = o' := by
  cases o <;> cases o' <;> first | rfl | exact congrArg _ h | exact h.elim

/-- C90.  Two stores are the same but for the records of an object.  Both have an access record of it that D1 accepts, and neither lists an ID of an
outsider.  Any calls of the whole library run concurrently under the same schedule, with the same draws, clock and IO failures; whoever calls
something on the object is an outsider, and nobody lets outsiders in.  Then the same calls end in the same order with the same answers, all requests to the
IO Provider are the same, and the stores still differ in the records of the object only. -/
theorem C90_blind (L : P.Laws) (hd : d.idProvider = s.getIdentity P) (hi : i.idProvider = s.getIdentity P)
    (hG : ∀ u, out u → sanitize u = u ∧ ¬ G u) {st st' : Store} {t : Nat} (hdiff : DifferOnlyIn oid st st')
    (ha : HasAccess P d oid st) (ha' : HasAccess P d oid st') (h0 : ShutOut P d s oid out G st) (h0' : ShutOut P d s oid out G st')
    (hdraw : ∀ n b, t ≤ n → env.rand n 16 = some b → ¬ G (newName b) ∧ mkV4 b ≠ oid) (calls : List ApiCall) (hc : ∀ c ∈ calls, NotLetIn P s oid out G c)
    (hon : ∀ c, .d1 c ∈ calls → c.onOid = some oid → ByOutsider P s out c.token) (sch : List Nat) :
    commits env sch ⟨st, t⟩ (calls.map (answerProg P d i s)) = commits env sch ⟨st', t⟩ (calls.map (answerProg P d i s)) ∧
    performed env sch ⟨st, t⟩ (calls.map (answerProg P d i s)) = performed env sch ⟨st', t⟩ (calls.map (answerProg P d i s)) ∧
    DifferOnlyIn oid (sched env sch ⟨st, t⟩ (calls.map (answerProg P d i s))).1.store (sched env sch ⟨st', t⟩ (calls.map (answerProg P d i s))).1.store := by
  have key := InStep.sched (env := env) (lo := t) (H := fun st st' => Hidden P d oid st st' ∧ ShutOut P d s oid out G st ∧ ShutOut P d s oid out G st')
    (E := Eq) (R := fun _ => Same Eq) sch (w := ⟨st, t⟩) (w' := ⟨st', t⟩) (ps := calls.map (answerProg P d i s)) (ps' := calls.map (answerProg P d i s))
    le_rfl rfl ⟨⟨hdiff, ha, ha'⟩, h0, h0'⟩ rfl fun j p p' hp hp' => by
      obtain rfl : p = p' := Option.some.inj (hp.symm.trans hp')
      rw [List.getElem?_map, Option.map_eq_some_iff] at hp
      obtain ⟨c, hj, rfl⟩ := hp
      have hmem := List.mem_of_getElem? hj
      have hs : Safe (RunStep env t) (ShutOut P d s oid out G) (fun _ => True) (answerProg P d i s c) :=
        safe_forget (apiProg_answer (P := P) c ▸ shut_api L hG hd hi hdraw (hc c hmem))
      refine InStep.keeping (fun _ _ => Iff.rfl) ?_ hs hs
      by_cases hx : ∃ c', c = .d1 c'
      · obtain ⟨c, rfl⟩ := hx
        refine blind_bind (Q := Eq) ?_ fun a a' h => by subst h; exact InStep.ret (Q := Same Eq) rfl
        by_cases ho : c.onOid = some oid
        · exact blind_outsider hG hd ho (hon c hmem ho)
        · exact blind_other hd (fun n b h1 h2 => (hdraw n b h1 h2).2) ho
      · exact blind_elsewhere ((aside_answer hi fun c' h => hx ⟨c', h⟩).mono fun _ h => h.elsewhere)
  refine ⟨forall₂_eq (fun _ _ => same_eq) key.2.1, forall₂_eq (fun _ _ h => h) key.2.2, key.1.1.1⟩

theorem hasAccess_of_rel (L : P.Laws) {st : Store} {v : Dir × Vault} (h : SysRel P d s st v) {e : Entry} (he : v.2 oid = some e) : HasAccess P d oid st := by
  have hrel := h.2 oid
  rw [he] at hrel
  obtain ⟨a', ⟨l, dk, k, n, hst, rfl⟩, -, hm⟩ := hrel
  refine ⟨_, ⟨(some l).map sanList, dk⟩, hst, (sealedAcc P d oid ⟨some l, dk⟩ k n), ?_, ?_⟩
  · rw [L.unmarshal_render, Option.bind_some, SealedAccess.ofJ_toJ L]
  · simp only [sealedAcc, NBytes.bytes, Option.getD_some]
    rw [Cryptor.decrypt_box L, Access.ofJ_toJ]

/-- C90 in terms of the directory and the vault: one store holds one object with one access list, the other another object with another list, and
neither list names an outsider or a group of an outsider. -/
theorem C90_vault (L : P.Laws) (hd : d.idProvider = s.getIdentity P) (hi : i.idProvider = s.getIdentity P)
    {st st' : Store} {t : Nat} {v v' : Dir × Vault} (h : SysRel P d s st v) (h' : SysRel P d s st' v') (hdiff : DifferOnlyIn oid st st')
    {e e' : Entry} (he : v.2 oid = some e) (he' : v'.2 oid = some e')
    (hout : ∀ u, out u → sanitize u = u ∧ (e.members u || e'.members u) = false ∧
      (∀ x, v.1.users u = some x → ∀ g ∈ x.groups, (e.members g || e'.members g) = false) ∧
      ∀ x, v'.1.users u = some x → ∀ g ∈ x.groups, (e.members g || e'.members g) = false)
    (hdraw : ∀ n b, t ≤ n → env.rand n 16 = some b → (e.members (newName b) || e'.members (newName b)) = false ∧ mkV4 b ≠ oid) (calls : List ApiCall)
    (hadd : ∀ t u gs, out u → .dir (.addUser t u gs) ∈ calls → ByOutsider P s out t ∨ ∀ g ∈ gs, (e.members (sanitize g) || e'.members (sanitize g)) = false)
    (hon : ∀ c, .d1 c ∈ calls → c.onOid = some oid → ByOutsider P s out c.token) (sch : List Nat) :
    commits env sch ⟨st, t⟩ (calls.map (answerProg P d i s)) = commits env sch ⟨st', t⟩ (calls.map (answerProg P d i s)) ∧
    performed env sch ⟨st, t⟩ (calls.map (answerProg P d i s)) = performed env sch ⟨st', t⟩ (calls.map (answerProg P d i s)) ∧
    DifferOnlyIn oid (sched env sch ⟨st, t⟩ (calls.map (answerProg P d i s))).1.store (sched env sch ⟨st', t⟩ (calls.map (answerProg P d i s))).1.store := by
  have hb : ∀ {b : Bool}, b = false → ¬ b = true := by simp
  refine C90_blind (G := fun x => (e.members x || e'.members x) = true) L hd hi (fun u hu => ⟨(hout u hu).1, hb (hout u hu).2.1⟩) hdiff
    (hasAccess_of_rel L h he) (hasAccess_of_rel L h' he') (shutOut_of_rel L h (fun u hu x hx g hg => hb ((hout u hu).2.2.1 x hx g hg)) fun e1 he1 x hx => ?_)
    (shutOut_of_rel L h' (fun u hu x hx g hg => hb ((hout u hu).2.2.2 x hx g hg)) fun e1 he1 x hx => ?_)
    (fun n b h0 hr => ⟨hb (hdraw n b h0 hr).1, (hdraw n b h0 hr).2⟩) calls (fun c hc => ?_) hon sch
  · rw [he] at he1
    cases he1
    simp only [hx, Bool.true_or]
  · rw [he'] at he1
    cases he1
    simp only [hx, Bool.or_true]
  · cases c with
    | d1 c =>
      cases c with
      | addGroups t oid' gs => rintro rfl hn; exact absurd (hon _ hc rfl) hn
      | _ => trivial
    | dir c =>
      cases c with
      | addUser t u gs => exact fun hu hn g hg => hb ((hadd t u gs hu hc).resolve_left hn g hg)
      | _ => trivial
    | _ => trivial

/-! ## A concrete case -/

/-- The store of `raceRel`, but with this object and this access list. -/
def secretStore (P : Prims) (d : D1) (s : Standalone) (o : Object) (l : List GoString) : Store :=
  ((raceStore P d s).set raceOid.1 dtObject (some (sealedObj P raceOid o raceKey raceNonce).toJ.render)).set raceOid.1 dtAccess
    (some (sealedAcc P d raceOid ⟨some l, some (kwpBox P d.objectCryptor.kwp raceKey.1)⟩ raceKey raceNonce).toJ.render)

def secretVault (o : Object) (l : List GoString) : Vault := fun x => if x = raceOid then some ⟨o, fun y => decide (y ∈ l)⟩ else none

theorem secretRel {o : Object} {l : List GoString} (hl : ∀ x ∈ l, sanitize x = x) :
    SysRel P d s (secretStore P d s o l) (raceDir P, secretVault o l) := by
  obtain ⟨⟨h1, h2⟩, h3⟩ := raceRel (P := P) (d := d) (s := s)
  refine ⟨⟨fun x => (h1 x).congr ?_, fun x => (h2 x).congr ?_⟩, fun x => ?_⟩
  · rw [secretStore, Store.set_other _ _ _ _ _ _ (fun h => absurd h.2 (by decide)), Store.set_other _ _ _ _ _ _ (fun h => absurd h.2 (by decide))]
  · rw [secretStore, Store.set_other _ _ _ _ _ _ (fun h => absurd h.2 (by decide)), Store.set_other _ _ _ _ _ _ (fun h => absurd h.2 (by decide))]
  · by_cases h : x = raceOid
    · subst h
      simp only [secretVault, if_true]
      refine ⟨_, ⟨l, some (kwpBox P d.objectCryptor.kwp raceKey.1), raceKey, raceNonce, Store.set_same _ _ _ _, rfl⟩, ⟨raceKey, raceNonce, ?_, rfl⟩, fun y => ?_⟩
      · rw [secretStore, Store.set_other _ _ _ _ _ _ (fun h => absurd h.2 (by decide)), Store.set_same]
      · simp only [has_sanList]
        rw [Bool.eq_iff_iff, List.any_eq_true, decide_eq_true_eq]
        constructor
        · rintro ⟨z, hz, h⟩
          rw [hl z hz, beq_iff_eq] at h
          exact h ▸ hz
        · exact fun hy => ⟨y, hy, by rw [hl y hy, beq_iff_eq]⟩
    · have h' : x.1 ≠ raceOid.1 := fun e => h (Subtype.ext e)
      have h4 := h3 x
      simp only [raceVault, if_neg h] at h4
      simp only [secretVault, if_neg h]
      refine ⟨Eq.trans ?_ h4.1, Eq.trans ?_ h4.2⟩ <;>
        rw [secretStore, Store.set_other _ _ _ _ _ _ (fun h => absurd h.1 h'), Store.set_other _ _ _ _ _ _ (fun h => absurd h.1 h')]

/-- C90, a concrete case in every deployment: user `a` (97), in group `g` (103), makes any D1 calls with their token, on a store with any
object and any list of others.  Nothing that happens depends on the object or the list. -/
theorem C90_case (L : P.Laws) (hd : d.idProvider = s.getIdentity P) (hi : i.idProvider = s.getIdentity P) (o o' : Object)
    (l l' : List GoString) (hl : ∀ x ∈ l ++ l', sanitize x = x ∧ x.length < 36 ∧ x ≠ [97] ∧ x ≠ [103]) (tok : GoString) (htok : Names P s tok [97])
    (hdraw : ∀ n b, env.rand n 16 = some b → mkV4 b ≠ raceOid) (calls : List Call) (hc : ∀ c ∈ calls, c.token = tok) (sch : List Nat) :
    commits env sch ⟨secretStore P d s o l, 0⟩ ((calls.map .d1).map (answerProg P d i s)) =
      commits env sch ⟨secretStore P d s o' l', 0⟩ ((calls.map .d1).map (answerProg P d i s)) ∧
    performed env sch ⟨secretStore P d s o l, 0⟩ ((calls.map .d1).map (answerProg P d i s)) =
      performed env sch ⟨secretStore P d s o' l', 0⟩ ((calls.map .d1).map (answerProg P d i s)) := by
  have hmem : ∀ x : GoString, x ∉ l ++ l' → ((⟨o, fun y => decide (y ∈ l)⟩ : Entry).members x || (⟨o', fun y => decide (y ∈ l')⟩ : Entry).members x) = false := by
    intro x hx
    rw [List.mem_append, not_or] at hx
    simp [hx.1, hx.2]
  have huser : ∀ x : DirUser, (raceDir P).users [97] = some x → x.groups = [[103]] := by
    intro x hx
    simp only [raceDir, true_or, if_true, Option.some.injEq] at hx
    rw [← hx]
  have hgr : ∀ u, u = [97] → ∀ x, (raceDir P).users u = some x → ∀ g ∈ x.groups, g ∉ l ++ l' := by
    rintro u rfl x hx g hg hm
    rw [huser x hx, List.mem_singleton] at hg
    exact (hl g hm).2.2.2 hg
  have hdiff : DifferOnlyIn raceOid (secretStore P d s o l) (secretStore P d s o' l') := by
    intro x dt hx
    simp only [secretStore]
    rw [Store.set_other _ _ _ _ _ _ (fun h => hx ⟨h.1, .inr h.2⟩), Store.set_other _ _ _ _ _ _ (fun h => hx ⟨h.1, .inl h.2⟩),
      Store.set_other _ _ _ _ _ _ (fun h => hx ⟨h.1, .inr h.2⟩), Store.set_other _ _ _ _ _ _ (fun h => hx ⟨h.1, .inl h.2⟩)]
  have key := C90_vault (env := env) (i := i) (oid := raceOid) (out := (· = [97])) (t := 0) L hd hi
    (secretRel (d := d) (s := s) (o := o) (l := l) fun x hx => (hl x (List.mem_append_left _ hx)).1)
    (secretRel (d := d) (s := s) (o := o') (l := l') fun x hx => (hl x (List.mem_append_right _ hx)).1) hdiff
    (show secretVault o l raceOid = some ⟨o, fun y => decide (y ∈ l)⟩ from if_pos rfl) (show secretVault o' l' raceOid = some ⟨o', fun y => decide (y ∈ l')⟩ from if_pos rfl)
    (by
      rintro u rfl
      exact ⟨by decide, hmem _ fun h => (hl _ h).2.2.1 rfl, fun x hx g hg => hmem _ (hgr _ rfl x hx g hg), fun x hx g hg => hmem _ (hgr _ rfl x hx g hg)⟩)
    (by
      intro n b _ hb
      refine ⟨hmem _ fun h => ?_, hdraw n b hb⟩
      have := (hl _ h).2.1
      rw [newName, uuidText_length] at this
      exact absurd this (by decide))
    (calls.map .d1) (by intro t u gs _ h; simp at h)
    (by
      intro c h1 _
      simp only [List.mem_map, ApiCall.d1.injEq, exists_eq_right] at h1
      exact ⟨[97], rfl, hc c h1 ▸ htok⟩) sch
  exact ⟨key.1, key.2.1⟩

/-- The difference is real: somebody on the list reads it. -/
theorem C90_insider (L : P.Laws) (hd : d.idProvider = s.getIdentity P) (hf : NoFault env) (hr : RandOk env) (o : Object) {tok : GoString} {t : Nat}
    (htok : tokenUser P s.tokenCryptor tok (env.now t).ns = some [98]) :
    ∃ w', (d.decrypt P tok raceOid).run env ⟨secretStore P d s o [[98]], t⟩ = (.ok o, w') := by
  have hrel : SysRel P d s (secretStore P d s o [[98]]) (raceDir P, secretVault o [[98]]) :=
    secretRel (d := d) (s := s) (o := o) (l := [[98]]) fun x hx => by rw [List.mem_singleton.mp hx]; decide
  refine (C44_decrypt_iff L hd hf hr (w := ⟨_, t⟩) hrel htok raceOid o).mpr ?_
  refine ⟨_, ⟨o, fun y => decide (y ∈ [[98]])⟩, rfl, fun g hg => ?_, by show scopeIn _ scopeAll = true; decide, show secretVault o [[98]] raceOid = _ from if_pos rfl, rfl, .inl (by simp)⟩
  rw [List.mem_singleton.mp hg]
  rfl

end
end D1
