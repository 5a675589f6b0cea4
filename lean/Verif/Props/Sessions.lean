import Verif.Props.Authentic
import Verif.Proofs.DirRun
/-!
# The Standalone provider against whoever has the IO Provider (C101)
-/
namespace D1
open Spec Prog

/-! ## Programs that differ only if the random source fails -/

def Alike {R : Type} : Prog R → Prog R → Prop
  | .op (.rand n) k, q => ∃ k', q = .op (.rand n) k' ∧ ∀ b : BytesN n, Alike (k (some b)) (k' (some b))
  | .op e k, q => ∃ k', q = .op e k' ∧ ∀ r, Alike (k r) (k' r)
  | p, q => q = p

theorem Alike.refl {R : Type} (p : Prog R) : Alike p p := by
  induction p with
  | op e k ih =>
    cases e with
    | rand n => exact ⟨k, rfl, fun b => ih _⟩
    | _ => exact ⟨k, rfl, fun r => ih r⟩
  | _ => rfl

theorem Alike.bind {R β : Type} (p : Prog β) {f g : β → Prog R} (h : ∀ b, Alike (f b) (g b)) : Alike (p.bind f) (p.bind g) := by
  induction p with
  | op e k ih =>
    cases e with
    | rand n => exact ⟨_, rfl, fun b => ih _⟩
    | _ => exact ⟨_, rfl, fun r => ih r⟩
  | ret a => exact h a
  | _ => rfl

/-- A program that has drawn its random bytes. -/
def Prog.Calm {R : Type} : Prog R → Prop
  | .op (.rand _) _ => False
  | _ => True

theorem settle_alike {R β : Type} {F G : Prog R → PMF β}
    (h : ∀ p q, Alike p q → p.Calm → F p = G q) : ∀ p q : Prog R, Alike p q → (settle p).bind F = (settle q).bind G := by
  intro p
  induction p with
  | op e k ih =>
    intro q hq
    cases e with
    | rand n =>
      obtain ⟨k', rfl, hk⟩ := hq
      simp only [settle, PMF.bind_bind]
      congr 1; funext b
      exact ih _ _ (hk b)
    | _ =>
      obtain ⟨k', rfl, hk⟩ := hq
      simp only [settle, PMF.pure_bind]
      exact h _ _ ⟨k', rfl, hk⟩ trivial
  | _ =>
    intro q hq
    obtain rfl : q = _ := hq
    simp only [settle, PMF.pure_bind]
    exact h _ _ rfl trivial

theorem trial_alike {X R F : Type} (A : Spy X R) {prog prog' : X → Prog R} (t : Terms X R F) (h : ∀ x, Alike (prog x) (prog' x)) :
    ∀ (n : Nat) (cs : List (Option X)) (v : List (Sight R)) (ps qs : List (Prog R)),
      List.Forall₂ Alike ps qs → A.trial prog t n cs v ps = A.trial prog' t n cs v qs := by
  intro n
  induction n with
  | zero => intros; rfl
  | succ n ih =>
    intro cs v ps qs hps
    cases hm : A.move n v with
    | stop => simp only [Spy.trial, hm]
    | begin x =>
      simp only [Spy.trial, hm]
      exact ih _ _ _ _ (List.rel_append hps (.cons (h x) .nil))
    | other p =>
      simp only [Spy.trial, hm]
      exact ih _ _ _ _ (List.rel_append hps (.cons (.refl p) .nil))
    | step j =>
      simp only [Spy.trial, hm]
      rcases List.forall₂_iff_get.mp hps with ⟨hl, hg⟩
      cases hj : ps[j]? with
      | none =>
        have : qs[j]? = none := by rw [List.getElem?_eq_none_iff] at hj ⊢; omega
        rw [this]
        exact ih _ _ _ _ hps
      | some p =>
        obtain ⟨hjl, rfl⟩ := List.getElem?_eq_some_iff.mp hj
        have hq : qs[j]? = some qs[j] := List.getElem?_eq_some_iff.mpr ⟨hl ▸ hjl, rfl⟩
        have ha := hg j hjl (hl ▸ hjl)
        simp only [List.get_eq_getElem] at ha
        rw [hq]
        have hset : ∀ p' q', Alike p' q' → List.Forall₂ Alike (ps.set j p') (qs.set j q') := by
          intro p' q' h1
          refine List.forall₂_iff_get.mpr ⟨by simp [hl], fun i hi hi' => ?_⟩
          simp only [List.get_eq_getElem, List.getElem_set]
          split
          · exact h1
          · exact hg i (by simpa using hi) (by simpa using hi')
        refine settle_alike (fun p q ha hc => ?_) _ _ ha
        cases p with
        | op e k =>
          cases e with
          | rand n => exact hc.elim
          | _ =>
            obtain ⟨k', rfl, hk⟩ := ha
            simp only [nextStep]
            congr 1
            exact ih _ _ _ _ (hset _ _ (hk _))
        | _ =>
          obtain rfl : q = _ := ha
          simp only [nextStep]
          congr 1
          exact ih _ _ _ _ (hset _ _ rfl)

/-! ## C101 -/

/-- What a caller of the Standalone provider sees. -/
inductive DirOut where
  | user (uid password : GoString)
  | token (t : GoString) (expiry : Int)
  | password (p : GoString)
  | group (gid : GoString)
  | unit
  | identity (i : Identity)

def dirCall (P : Prims) (s : Standalone) : DirCall → Prog DirOut
  | .newUser sc => (s.newUser P sc).bind fun r => .ret (.user r.1 r.2)
  | .loginUser u p => (s.loginUser P u p).bind fun r => .ret (.token r.1 r.2)
  | .changePassword u p => (s.changeUserPassword P u p).bind fun r => .ret (.password r)
  | .newGroup t sc => (s.newGroup P t sc).bind fun g => .ret (.group g)
  | .addUser t u gs => (s.addUserToGroups P t u gs).bind fun _ => .ret .unit
  | .removeUser t u gs => (s.removeUserFromGroups P t u gs).bind fun _ => .ret .unit
  | .deleteUser t u => (s.deleteUser P t u).bind fun _ => .ret .unit
  | .getIdentity t => (s.getIdentity P t).bind fun i => .ret (.identity i)

/-- The provider with a given token key. -/
def Standalone.withTek (s : Standalone) (tek : BytesN 32) : Standalone := { s with tokenCryptor := ⟨tek.1⟩ }

/-- The expiry time that a token string states. -/
def expiryOf (P : Prims) (t : GoString) : Option Int :=
  match tokenFromString P t with
  | .error _ => none
  | .ok st => some st.expiryTime.ns

/-- The token that a call needs. -/
def presented : DirCall → Option GoString
  | .newUser _ | .loginUser _ _ | .changePassword _ _ => none
  | .newGroup t _ | .addUser t _ _ | .removeUser t _ _ | .deleteUser t _ | .getIdentity t => some t

/-- `GetIdentity` returns the identity of, and asks for, user `u` only. -/
def actsFor : DirCall → DirOut ⊕ Eff → GoString → Prop
  | .getIdentity _, .inl (.identity i), u => i.id = u
  | .getIdentity _, .inr (.get v dt), u => dt = dtUser → v = u
  | _, _, _ => True

/-- Looking at the clock. -/
def looks : DirOut ⊕ Eff → Bool
  | .inr .now => true
  | _ => false

/-- `LoginUser` makes a session of the user it is called with, when it returns a token, which lasts until the time that it returns.  All calls that take
a token should succeed, or send anything to the IO Provider, only if there is a session that lasts until the time that the token
states; `GetIdentity` should act for the user of that session. -/
def sessionTerms (P : Prims) : Terms DirCall DirOut (GoString × Int) where
  brings
    | .loginUser u _, f, H => f.1 = u ∧ ∃ t e, H (.inl (.ok (.token t e))) ∧ expiryOf P t = some f.2 ∧ e = f.2 / 1000000000
    | _, _, _ => False
  needs x s D := ∃ t, presented x = some t ∧ looks s = false ∧ D = fun f => expiryOf P t = some f.2 ∧ actsFor x s f.1

/-- Opening the token. -/
def sessionI (P : Prims) (t : GoString) (k : GoString → Prog DirOut) : IProg DirOut :=
  match tokenFromString P t with
  | .error _ => .err .idNotAuthenticated
  | .ok st => .after timeNow fun now => if st.expiryTime.before now then .err .idNotAuthenticated else
      .unbox (J.ofTime P st.expiryTime).render st.wrappedKey.bytes st.ciphertext.bytes fun r => match readAs J.toBytes r with
        | .error _ => .err .idNotAuthenticated
        | .ok p => .lift (k p.bytes)

/-- `GetIdentity` after the token was opened. -/
def identityOf (P : Prims) (s : Standalone) (u : GoString) : Prog Identity :=
  (s.getUser P u).bind fun user => (s.fetchGroups P (user.groups.getD [])).bind fun groups => .ret ⟨u, user.scopes, groups⟩

/-- A call with sealing and opening of tokens left open. -/
def dirI (P : Prims) (s : Standalone) : DirCall → IProg DirOut
  | .newUser sc => .lift (dirCall P s (.newUser sc))
  | .changePassword u p => .lift (dirCall P s (.changePassword u p))
  | .loginUser u p => .after (((s.getUser P u).mapErr .idNotAuthenticated).bind fun user =>
      ((user.authenticate P p).mapErr .idNotAuthenticated).bind fun _ => timeNow) fun now =>
        .box (.ofBytes (some u)) (J.ofTime P (now.add tokenValidity)).render fun x =>
          .ret (.token ((⟨now.add tokenValidity, some x.2, some x.1⟩ : SealedToken).string P) (now.add tokenValidity).unix)
  | .newGroup t sc => sessionI P t fun u => (identityOf P s u).bind fun i =>
      newV4.bind fun gid => (s.putGroup P (uuidText gid) (D1.newGroup sc)).bind fun _ => (s.getUser P i.id).bind fun user =>
        (Prog.ofPanic (user.addGroups [uuidText gid])).bind fun user => (s.putUser P i.id user true).bind fun _ =>
          .ret (.group (uuidText gid))
  | .addUser t u gs => sessionI P t fun me => (identityOf P s me).bind fun i => (checkMembership i gs).bind fun _ =>
      (s.getUser P u).bind fun user => (Prog.ofPanic (user.addGroups gs)).bind fun user => (s.putUser P u user true).bind fun _ =>
        .ret .unit
  | .removeUser t u gs => sessionI P t fun me => (identityOf P s me).bind fun i => (checkMembership i gs).bind fun _ =>
      (s.getUser P u).bind fun user => (s.putUser P u (user.removeGroups gs) true).bind fun _ => .ret .unit
  | .deleteUser t u => sessionI P t fun me => (identityOf P s me).bind fun _ => (ioDelete .io u dtUser).bind fun _ => .ret .unit
  | .getIdentity t => sessionI P t fun me => (identityOf P s me).bind fun i => .ret (.identity i)

theorem fetchGroups_withTek (P : Prims) (s : Standalone) (tek : BytesN 32) (l : List GoString) :
    (s.withTek tek).fetchGroups P l = s.fetchGroups P l := by
  induction l with
  | nil => rfl
  | cons g l ih => rw [Standalone.fetchGroups, Standalone.fetchGroups, ih]; rfl

theorem expand_sessionI (P : Prims) (s : Standalone) (tek : BytesN 32) (t : GoString) (f : Identity → Prog DirOut)
    {k : GoString → Prog DirOut} (hk : ∀ u, k u = (identityOf P s u).bind f) :
    (sessionI P t k).expand P tek = ((s.withTek tek).getIdentity P t).bind f := by
  rw [sessionI, Standalone.getIdentity]
  cases tokenFromString P t with
  | error e => rfl
  | ok st =>
    simp only [IProg.expand_after, SealedToken.unseal, timeNow, Prog.bind, Prog.bind_eq, Prog.pure_eq, Prog.attempt]
    congr 1; funext now
    split
    · rfl
    · simp only [IProg.expand, decrypt_unboxed, fetchGroups_withTek]
      show _ = Prog.bind (Prog.attempt (Prog.bind (Prog.ofExcept (readAs J.toBytes (unboxed P tek.1 _ _ _))) _) _) f
      cases readAs J.toBytes (unboxed P tek.1 (J.ofTime P st.expiryTime).render st.wrappedKey.bytes st.ciphertext.bytes) with
      | error e => rfl
      | ok p =>
        simp only [IProg.expand_lift, hk]
        rfl

theorem alike_dirI {P : Prims} (L : P.Laws) (s : Standalone) (tek : BytesN 32) (c : DirCall) :
    Alike (dirCall P (s.withTek tek) c) ((dirI P s c).expand P tek) := by
  cases c with
  | newUser sc => rw [dirI, IProg.expand_lift]; exact .refl _
  | changePassword u p => rw [dirI, IProg.expand_lift]; exact .refl _
  | loginUser u p =>
    rw [dirI, IProg.expand_after, dirCall, loginUser_eq]
    simp only [Prog.bind_assoc, newToken, Prog.bind_eq, Prog.pure_eq, Prog.ret_bind]
    refine .bind _ fun user => .bind _ fun _ => .bind _ fun now => ?_
    rw [Token.seal]
    simp only [Cryptor.encrypt_eq L, IProg.expand, randBytes, Prog.bind, Prog.bind_eq, Prog.pure_eq, Prog.mapErr, Prog.attempt]
    exact ⟨_, rfl, fun key => ⟨_, rfl, fun nonce => rfl⟩⟩
  | newGroup t sc =>
    rw [dirI, expand_sessionI P s tek t _ fun _ => rfl, dirCall, Standalone.newGroup]
    simp only [Prog.bind_eq, Prog.pure_eq, Prog.bind_assoc, Prog.ret_bind]
    exact .refl _
  | addUser t u gs =>
    rw [dirI, expand_sessionI P s tek t _ fun _ => rfl, dirCall, Standalone.addUserToGroups]
    simp only [Prog.bind_eq, Prog.pure_eq, Prog.bind_assoc, Prog.ret_bind]
    exact .refl _
  | removeUser t u gs =>
    rw [dirI, expand_sessionI P s tek t _ fun _ => rfl, dirCall, Standalone.removeUserFromGroups]
    simp only [Prog.bind_eq, Prog.pure_eq, Prog.bind_assoc, Prog.ret_bind]
    exact .refl _
  | deleteUser t u =>
    rw [dirI, expand_sessionI P s tek t _ fun _ => rfl, dirCall, Standalone.deleteUser]
    simp only [Prog.bind_eq, Prog.pure_eq, Prog.bind_assoc, Prog.ret_bind]
    exact .refl _
  | getIdentity t =>
    rw [dirI, expand_sessionI P s tek t _ fun _ => rfl, dirCall]
    exact .refl _

/-- The session that a box stands for. -/
def sessionOf (P : Prims) (aad : Bytes) (m : J) (f : GoString × Int) : Prop :=
  (∃ t, aad = (J.ofTime P t).render ∧ f.2 = t.ns) ∧ ∃ p, m.san.toBytes = some p ∧ p.bytes = f.1

theorem keeps_sessionI {P : Prims} {x : DirCall} {t : GoString} {k : GoString → Prog DirOut} (hx : presented x = some t)
    (hk : ∀ u, (k u).Does fun s => actsFor x s u) :
    (sessionI P t k).Keeps (sessionOf P) (sessionTerms P) x (fun _ => False) fun _ => False := by
  rw [sessionI]
  cases ht : tokenFromString P t with
  | error e => trivial
  | ok st =>
    refine IProg.keeps_after _ ⟨fun D hD => ?_, fun _ => trivial⟩ nofun fun now H _ _ => ?_
    · obtain ⟨_, _, h, _⟩ := hD
      exact nomatch h
    · split
      · trivial
      · refine ⟨fun e => trivial, fun m => ?_⟩
        show IProg.Keeps _ _ _ _ _ (match readAs J.toBytes (.ok (some m.san)) with | .error _ => .err .idNotAuthenticated | .ok p => .lift (k p.bytes))
        cases hd : m.san.toBytes with
        | none => simp only [readAs, Option.bind_some, hd]; trivial
        | some p =>
          simp only [readAs, Option.bind_some, hd]
          refine IProg.keeps_lift ?_
          have hk := hk p.bytes
          revert hk
          generalize k p.bytes = q
          intro hk
          have hm : ∀ s, actsFor x s p.bytes → (sessionTerms P).Met x s fun f => False ∨ sessionOf P (J.ofTime P st.expiryTime).render m f := by
            intro s hs D hD
            obtain ⟨t', ht', -, rfl⟩ := hD
            obtain rfl : t = t' := Option.some.inj (hx.symm.trans ht')
            exact ⟨(p.bytes, st.expiryTime.ns), ⟨by rw [expiryOf, ht], hs⟩, .inr ⟨⟨_, rfl, rfl⟩, p, hd, rfl⟩⟩
          induction q with
          | op e c ih => exact ⟨hm _ hk.1, fun r => ih r (hk.2 r)⟩
          | ret a => exact hm _ hk
          | _ => trivial

theorem does_identity (P : Prims) (s : Standalone) (t u : GoString) :
    Prog.Does (fun x => actsFor (.getIdentity t) x u) ((identityOf P s u).bind fun i => .ret (.identity i)) := by
  have hg : ∀ l, (s.fetchGroups P l).Sends fun e => actsFor (.getIdentity t) (.inr e) u := by
    intro l
    induction l with
    | nil => trivial
    | cons g l ih =>
      rw [Standalone.fetchGroups]
      refine Prog.sends_bind ?_ fun _ => Prog.sends_bind ih fun _ => trivial
      rw [Standalone.getGroup, ioGet]
      refine ⟨fun h => absurd h (by decide), fun r => ?_⟩
      exact Prog.sends_bind (by cases r <;> trivial) fun _ => by split <;> [trivial; (cases SealedGroup.unseal P _ _ <;> trivial)]
  rw [identityOf, Prog.bind_assoc]
  refine Prog.does_bind ?_ fun user => ?_
  · rw [Standalone.getUser, ioGet]
    refine ⟨fun _ => rfl, fun r => ?_⟩
    exact Prog.sends_bind (by cases r <;> trivial) fun _ => by split <;> [trivial; (cases SealedUser.unseal P _ _ <;> trivial)]
  · rw [Prog.bind_assoc]
    exact Prog.does_bind (hg _) fun _ => rfl

theorem keeps_dirI {P : Prims} (L : P.Laws) (s : Standalone) (x : DirCall) :
    (dirI P s x).Keeps (sessionOf P) (sessionTerms P) x (fun _ => False) fun _ => False := by
  cases x with
  | newUser sc => exact IProg.keeps_lift (Prog.does_all (fun s D hD => nomatch hD.choose_spec.1) _)
  | changePassword u p => exact IProg.keeps_lift (Prog.does_all (fun s D hD => nomatch hD.choose_spec.1) _)
  | loginUser u p =>
    refine IProg.keeps_after _ (Prog.sends_all (fun e D hD => nomatch hD.choose_spec.1) _) nofun fun now H _ _ => fun r => ⟨fun f hf => .inr ?_, ?_⟩
    · obtain ⟨⟨t, h1, h2⟩, p, h3, h4⟩ := hf
      rw [san_ofBytes, toBytes_ofBytes, Option.some.injEq] at h3
      subst h3
      have h5 := ((ofTime_render_inj L h1).2).trans h2.symm
      obtain ⟨st', h6, -, -, h7, -⟩ := C25_roundtrip L ⟨now.add tokenValidity, some r.2, some r.1⟩
      refine ⟨h4.symm, _, _, .inr rfl, ?_, ?_⟩
      · rw [expiryOf, h6]
        exact congrArg some (h7.trans h5)
      · rw [← h5]; rfl
    · exact fun D hD => nomatch hD.choose_spec.1
  | newGroup t sc => rw [dirI]; exact keeps_sessionI (x := (.newGroup t sc)) rfl fun _ => Prog.does_all (fun _ => by simp only [actsFor]) _
  | addUser t u gs => rw [dirI]; exact keeps_sessionI (x := (.addUser t u gs)) rfl fun _ => Prog.does_all (fun _ => by simp only [actsFor]) _
  | removeUser t u gs => rw [dirI]; exact keeps_sessionI (x := (.removeUser t u gs)) rfl fun _ => Prog.does_all (fun _ => by simp only [actsFor]) _
  | deleteUser t u => rw [dirI]; exact keeps_sessionI (x := (.deleteUser t u)) rfl fun _ => Prog.does_all (fun _ => by simp only [actsFor]) _
  | getIdentity t => exact keeps_sessionI rfl fun u => does_identity P s t u

/-- C101: whoever has a session that no login made tells wrapped keys from other keys, or forges AES-GCM ciphertexts. -/
theorem C101_sessions {P : Prims} (L : P.Laws) (s : Standalone) (A : Spy DirCall DirOut) (n : Nat) :
    chance (trialGame (fun tek => dirCall P (s.withTek tek)) (sessionTerms P) A n) ≤
      wrapGap P (unwrapAttack P (dirI P s) (sessionTerms P) A n) + forgeGap P (forgeAttack P (dirI P s) (sessionTerms P) A n) := by
  have h := trial_chance L (keeps_dirI L s) A n
  have ht : trialGame (fun tek => dirCall P (s.withTek tek)) (sessionTerms P) A n =
      trialGame (fun kek x => (dirI P s x).expand P kek) (sessionTerms P) A n := by
    simp only [trialGame]
    congr 1; funext tek
    exact trial_alike A _ (alike_dirI L s tek) n _ _ _ _ .nil
  rw [ht]
  exact h

theorem bursts_sessionI (P : Prims) (t : GoString) (k : GoString → Prog DirOut) : (sessionI P t k).Bursts 1 1 := by
  rw [sessionI]
  split
  · trivial
  · refine IProg.bursts_after (Nat.le_refl 1) _ fun now => ?_
    split
    · trivial
    · intro r
      show IProg.Bursts 1 0 (match readAs J.toBytes r with | .error _ => .err .idNotAuthenticated | .ok p => .lift (k p.bytes))
      split
      · trivial
      · exact IProg.bursts_lift (Nat.zero_le 1) _

theorem bursts_dirI (P : Prims) (s : Standalone) (x : DirCall) : (dirI P s x).Bursts 1 1 := by
  cases x with
  | newUser sc => exact IProg.bursts_lift (Nat.le_refl 1) _
  | changePassword u p => exact IProg.bursts_lift (Nat.le_refl 1) _
  | loginUser u p => exact IProg.bursts_after (Nat.le_refl 1) _ fun now => fun r => trivial
  | _ => rw [dirI]; exact bursts_sessionI P _ _

/-- C101: the attacks ask no more often than the adversary moves. -/
theorem C101_questions (P : Prims) (s : Standalone) (A : Spy DirCall DirOut) (n : Nat) :
    (unwrapAttack P (dirI P s) (sessionTerms P) A n).Asks n ∧ (forgeAttack P (dirI P s) (sessionTerms P) A n).Asks n := by
  have h1 := bursts_unwrapAttack P (sessionTerms P) (bursts_dirI P s) A n
  have h2 := bursts_forgeAttack P (sessionTerms P) (bursts_dirI P s) A n
  rw [Nat.one_mul] at h1 h2
  exact ⟨h1, h2⟩

theorem solo_request {X R F : Type} {A : Spy X R} {prog : X → Prog R} {t : Terms X R F} {n : Nat} {x : X} {v : List (Sight R)}
    {e : Eff} {k : e.Resp → Prog R} {D : F → Prop} (hm : A.move n v = .step 0) (he : ∀ n, e ≠ .rand n) (hn : t.needs x (.inr e) D)
    (hc : ∀ f H, ¬t.brings x f H) : A.trial prog t (n + 1) [some x] v [.op e k] = PMF.pure true := by
  have hs : settle (.op e k) = PMF.pure (.op e k) := by
    cases e with
    | rand n => exact (he n rfl).elim
    | _ => rfl
  simp only [Spy.trial, hm, List.getElem?_cons_zero, hs, PMF.pure_bind, nextStep]
  refine if_pos ⟨x, D, rfl, hn, ?_⟩
  rintro ⟨f, -, i, y, hi, hy⟩
  cases i with
  | zero => cases hi; exact hc f _ hy
  | succ i => exact nomatch hi

/-- Identifying oneself with a token that is opened. -/
theorem getIdentity_open {P : Prims} (s : Standalone) {str u : GoString} {t : SealedToken} (ht : tokenFromString P str = .ok t)
    (hd : s.tokenCryptor.decrypt P J.toBytes (.ofTime P t.expiryTime) t.wrappedKey.bytes t.ciphertext.bytes = .ok (some u)) :
    ∃ k, dirCall P s (.getIdentity str) = .op .now fun now =>
      if t.expiryTime.before now then .err .idNotAuthenticated else .op (.get u dtUser) k := by
  obtain ⟨k, hk⟩ : ∃ k, (s.getUser P u).bind (fun user => (s.fetchGroups P (user.groups.getD [])).bind fun groups =>
      .ret (DirOut.identity ⟨u, user.scopes, groups⟩)) = .op (.get u dtUser) k := ⟨_, rfl⟩
  refine ⟨k, ?_⟩
  rw [dirCall, Standalone.getIdentity, ht]
  simp only [SealedToken.unseal, Prog.bind_eq, Prog.pure_eq, timeNow, Prog.bind, Prog.attempt]
  congr 1; funext now
  split
  · rfl
  · rw [hd, ← hk]
    simp only [Prog.ofExcept, Prog.ret_bind, Prog.attempt, Prog.bind_assoc, NBytes.bytes, Option.getD_some]

/-- The adversary identifies itself with a token that it made up. -/
def sessionForger : Spy DirCall DirOut where
  answer _ e := (Store.exec (fun _ _ => none) (fun _ => none) ⟨0, 0⟩ e).1
  move
    | 2, _ => .begin (.getIdentity (hollowToken.string hollowPrims))
    | _, _ => .step 0
  guess _ := false

theorem C101_case (s : Standalone) :
    chance (trialGame (fun tek => dirCall hollowPrims (s.withTek tek)) (sessionTerms hollowPrims) sessionForger 3) = 1 := by
  have h : ∀ tek, sessionForger.trial (dirCall hollowPrims (s.withTek tek)) (sessionTerms hollowPrims) 3 [] [] [] = PMF.pure true := by
    intro tek
    obtain ⟨t, ht, hw, hc, hn, he⟩ := C25_roundtrip hollowLaws hollowToken
    have hd : (s.withTek tek).tokenCryptor.decrypt hollowPrims J.toBytes (.ofTime hollowPrims t.expiryTime)
        t.wrappedKey.bytes t.ciphertext.bytes = .ok (some [1]) := by
      have : J.ofTime hollowPrims t.expiryTime = J.ofTime hollowPrims ⟨0, 0⟩ := congrArg J.str he
      rw [this, hw, hc]
      exact decrypt_madeUp tek.1 J.toBytes (.ofTime hollowPrims ⟨0, 0⟩) (.ofBytes (some [1])) (by rw [san_ofBytes, toBytes_ofBytes])
    obtain ⟨k, hp⟩ := getIdentity_open (s.withTek tek) ht hd
    have hb : t.expiryTime.before ⟨0, 0⟩ = false := by
      have : t.expiryTime.ns = 0 := hn
      simp [GoTime.before, this]
    rw [solo_begin (x := .getIdentity (hollowToken.string hollowPrims)) rfl, hp]
    have ha : (if t.expiryTime.before (sessionForger.answer [] .now) then .err .idNotAuthenticated
        else .op (.get [1] dtUser) k) = Prog.op (.get [1] dtUser) k := if_neg (by rw [Bool.not_eq_true]; exact hb)
    rw [solo_op rfl (by intro n h; exact nomatch h) (by rintro D ⟨_, _, h, _⟩; exact nomatch h), ha]
    exact solo_request rfl (by intro n h; exact nomatch h) ⟨_, rfl, rfl, rfl⟩ fun f H hf => hf
  simp only [trialGame, h, PMF.bind_const, chance_true]

end D1
