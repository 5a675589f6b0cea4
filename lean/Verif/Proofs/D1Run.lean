import Verif.Proofs.Run
import Verif.Spec.Vault
import Verif.Props.Id
/-!
# Sequential runs of D1 refine the vault
-/
namespace D1
open Spec

/-- The sealed form of an object under a drawn key and nonce. -/
def sealedObj (P : Prims) (oid : Oid) (o : Object) (k : BytesN 32) (n : BytesN 12) : SealedObject :=
  ⟨some (gcmBox P k.1 n.1 (objectAad oid o.associatedData).render (J.ofBytes o.plaintext).render), o.associatedData, oid⟩

/-- The sealed form of an access list under a drawn key and nonce. -/
def sealedAcc (P : Prims) (d : D1) (oid : Oid) (a : Access) (k : BytesN 32) (n : BytesN 12) : SealedAccess :=
  ⟨oid, some (gcmBox P k.1 n.1 (J.ofBytes (some oid.1)).render a.toJ.render), some (kwpBox P d.accessCryptor.kwp k.1)⟩

/-- The store holds an access record for the ID that reads as `a`. -/
def AccAt (P : Prims) (d : D1) (s : Store) (oid : Oid) (a : Access) : Prop :=
  ∃ (l : List GoString) (dek : NBytes) (k : BytesN 32) (n : BytesN 12),
    s oid.1 dtAccess = some (sealedAcc P d oid ⟨some l, dek⟩ k n).toJ.render ∧ a = ⟨some (sanList l), dek⟩

/-- The store holds an object record for the ID, sealed under the wrapped key `dek`. -/
def ObjAt (P : Prims) (d : D1) (s : Store) (oid : Oid) (o : Object) (dek : NBytes) : Prop :=
  ∃ (k : BytesN 32) (n : BytesN 12), s oid.1 dtObject = some (sealedObj P oid o k n).toJ.render ∧
    dek = some (kwpBox P d.objectCryptor.kwp k.1)

/-- The store holds this entry of the vault. -/
def EntryAt (P : Prims) (d : D1) (s : Store) (oid : Oid) (e : Entry) : Prop :=
  ∃ a, AccAt P d s oid a ∧ ObjAt P d s oid e.object a.wrappedDEK ∧ ∀ x, a.groups.has x = e.members x

/-- The abstraction relation. -/
def Rel (P : Prims) (d : D1) (s : Store) (v : Vault) : Prop :=
  ∀ oid, match v oid with
    | none => s oid.1 dtObject = none ∧ s oid.1 dtAccess = none
    | some e => EntryAt P d s oid e

/-- Two stores hold the same object and access records. -/
def SameObjects (s s' : Store) : Prop := ∀ id, s' id dtObject = s id dtObject ∧ s' id dtAccess = s id dtAccess

/-- The Identity Provider answers or rejects without touching objects and access lists, and the group map of an identity
is a map. -/
def IdpOk (d : D1) (env : Env) : Prop :=
  ∀ token w, SameObjects w.store ((d.idProvider token).run env w).2.store ∧
    ((∃ i, ((d.idProvider token).run env w).1 = .ok i ∧ (i.groups.map Prod.fst).Nodup) ∨
      ∃ e, ((d.idProvider token).run env w).1 = .err e)

/-- What the Identity Provider says about a token in a world. -/
def whoIs (d : D1) (env : Env) (w : World) (token : GoString) : Option Identity :=
  match ((d.idProvider token).run env w).1 with
  | .ok i => some i
  | _ => none

/-- The world after asking the Identity Provider. -/
def afterIdp (d : D1) (env : Env) (w : World) (token : GoString) : World := ((d.idProvider token).run env w).2

/-- The object ID that `Encrypt` draws. -/
def freshOid (d : D1) (env : Env) (w : World) (token : GoString) : Oid := mkV4 (drawn env (afterIdp d env w token).t 16)

def toOutcome {α : Type} : Except Err α → Outcome α
  | .ok a => .ok a
  | .error e => .err e

/-- The program of a call, with what the caller sees. -/
def callProg (P : Prims) (d : D1) : Call → Prog Res
  | .encrypt t o gs => (d.encrypt P t o gs).bind fun oid => .ret (.oid oid)
  | .update t oid o => (d.update P t oid o).bind fun _ => .ret .unit
  | .decrypt t oid => (d.decrypt P t oid).bind fun o => .ret (.object o)
  | .delete t oid => (d.delete P t oid).bind fun _ => .ret .unit
  | .getGroups t oid => (d.getAccessGroups P t oid).bind fun g => .ret (.groups g.has)
  | .addGroups t oid gs => (d.addGroupsToAccess P t oid gs).bind fun _ => .ret .unit
  | .removeGroups t oid gs => (d.removeGroupsFromAccess P t oid gs).bind fun _ => .ret .unit
  | .authorize t oid => (d.authorizeIdentity P t oid).bind fun _ => .ret .unit

theorem scopeIn_eq (s t : Scope) : scopeIn s t = t.contains s := by
  rw [Bool.eq_iff_iff, C45_contains_iff]
  simp [scopeIn]

theorem allowed_eq (i : Identity) (hn : (i.groups.map Prod.fst).Nodup) (s : Scope) (a : Access) (m : GoString → Bool)
    (hm : ∀ x, a.groups.has x = m x) :
    i.getIDs.any (fun gid => a.containsGroups [gid] && (i.getIDScope gid).contains s) = allowed i s m := by
  rw [Bool.eq_iff_iff]
  simp only [List.any_eq_true, Access.containsGroups, List.all_cons, List.all_nil, Bool.and_true, hm, Bool.and_eq_true,
    allowed, Bool.or_eq_true, scopeIn_eq, bne_iff_ne, ne_eq]
  obtain ⟨h1, h2, h3⟩ := C46_getIDScope i hn
  constructor
  · rintro ⟨x, hx, hmx, hs⟩
    rw [(C46_getIDs i x).1] at hx
    by_cases hxi : x = i.id
    · subst hxi; rw [h1] at hs; exact .inl ⟨hmx, hs⟩
    · rcases hx with h | ⟨g, hg⟩
      · exact absurd h hxi
      · rw [h2 x g hg hxi] at hs
        exact .inr ⟨(x, g), hg, ⟨hxi, hmx⟩, hs⟩
  · rintro (⟨hmx, hs⟩ | ⟨⟨x, g⟩, hg, ⟨hxi, hmx⟩, hs⟩)
    · exact ⟨i.id, (C46_getIDs i i.id).1.mpr (.inl rfl), hmx, by rw [h1]; exact hs⟩
    · exact ⟨x, (C46_getIDs i x).1.mpr (.inr ⟨g, hg⟩), hmx, by rw [h2 x g hg hxi]; exact hs⟩

section
variable {P : Prims} (L : P.Laws) {env : Env}

theorem AccAt.congr {d : D1} {s s' : Store} {oid : Oid} {a : Access} (hs : s' oid.1 dtAccess = s oid.1 dtAccess)
    (h : AccAt P d s oid a) : AccAt P d s' oid a := by
  obtain ⟨l, dek, k, n, h1, h2⟩ := h
  exact ⟨l, dek, k, n, by rw [hs]; exact h1, h2⟩

theorem ObjAt.congr {d : D1} {s s' : Store} {oid : Oid} {o : Object} {dek : NBytes}
    (hs : s' oid.1 dtObject = s oid.1 dtObject) (h : ObjAt P d s oid o dek) : ObjAt P d s' oid o dek := by
  obtain ⟨k, n, h1, h2⟩ := h
  exact ⟨k, n, by rw [hs]; exact h1, h2⟩

theorem EntryAt.congr {d : D1} {s s' : Store} {oid : Oid} {e : Entry} (ho : s' oid.1 dtObject = s oid.1 dtObject)
    (ha : s' oid.1 dtAccess = s oid.1 dtAccess) (h : EntryAt P d s oid e) : EntryAt P d s' oid e := by
  obtain ⟨a, h1, h2, h3⟩ := h
  exact ⟨a, h1.congr ha, h2.congr ho, h3⟩

theorem Rel.congr {d : D1} {s s' : Store} {v : Vault} (hs : SameObjects s s') (h : Rel P d s v) : Rel P d s' v := by
  intro oid
  have := h oid
  obtain ⟨ho, ha⟩ := hs oid.1
  cases hv : v oid with
  | none => rw [hv] at this; simp only at this ⊢; rw [ho, ha]; exact this
  | some e => rw [hv] at this; exact EntryAt.congr ho ha this

/-- Changing only the records of one ID. -/
theorem Rel.set {d : D1} {s s' : Store} {v : Vault} (h : Rel P d s v) (oid : Oid) (e : Option Entry)
    (hother : ∀ id, id ≠ oid.1 → s' id dtObject = s id dtObject ∧ s' id dtAccess = s id dtAccess)
    (hnew : match e with
      | none => s' oid.1 dtObject = none ∧ s' oid.1 dtAccess = none
      | some e => EntryAt P d s' oid e) : Rel P d s' (v.set oid e) := by
  intro o
  by_cases ho : o = oid
  · subst ho; simpa [Vault.set] using hnew
  · have h1 := h o
    obtain ⟨e1, e2⟩ := hother o.1 (fun hh => ho (Subtype.ext hh))
    simp only [Vault.set, if_neg ho]
    cases hv : v o with
    | none => rw [hv] at h1; simp only at h1 ⊢; rw [e1, e2]; exact h1
    | some e => rw [hv] at h1; exact EntryAt.congr e1 e2 h1

include L

theorem run_getSealedAccess (hf : NoFault env) {d : D1} {w : World} {oid : Oid} {a : Access} (h : AccAt P d w.store oid a) :
    ∃ sa, (getSealedAccess P oid).run env w = (.ok sa, w.next w.store) ∧ sa.unseal P d.accessCryptor = .ok a := by
  obtain ⟨l, dek, k, n, h1, rfl⟩ := h
  refine ⟨sealedAcc P d oid ⟨some l, dek⟩ k n, ?_, ?_⟩
  · rw [getSealedAccess, Prog.bind_eq, Prog.run_bind_ok env (run_ioGet_some hf _ w _ _ _ h1)]
    simp only [L.unmarshal_render, Option.bind_some, SealedAccess.ofJ_toJ L, Prog.pure_eq, Prog.run_ret, sealedAcc]
  · rw [SealedAccess.unseal]
    simp only [sealedAcc, NBytes.bytes, Option.getD_some]
    rw [Cryptor.decrypt_box L, Access.ofJ_toJ]
    rfl

theorem run_getSealedObject (hf : NoFault env) {d : D1} {w : World} {oid : Oid} {o : Object} {dek : NBytes}
    (h : ObjAt P d w.store oid o dek) :
    ∃ so, (getSealedObject P oid).run env w = (.ok so, w.next w.store) ∧ so.unseal P dek d.objectCryptor = .ok o := by
  obtain ⟨k, n, h1, rfl⟩ := h
  refine ⟨sealedObj P oid o k n, ?_, ?_⟩
  · rw [getSealedObject, Prog.bind_eq, Prog.run_bind_ok env (run_ioGet_some hf _ w _ _ _ h1)]
    simp only [L.unmarshal_render, Option.bind_some, SealedObject.ofJ_toJ L, Prog.pure_eq, Prog.run_ret, sealedObj]
  · rw [SealedObject.unseal]
    simp only [sealedObj, NBytes.bytes, Option.getD_some]
    have := Cryptor.decrypt_box L d.objectCryptor J.toBytes (objectAad oid o.associatedData) (J.ofBytes o.plaintext) k n
    simp only [san_ofBytes, toBytes_ofBytes] at this
    rw [this]

theorem Object.run_seal (hr : RandOk env) (o : Object) (oid : Oid) (c : Cryptor) (w : World) :
    (o.seal P oid c).run env w = (.ok (kwpBox P c.kwp (drawn env w.t 32).1,
      sealedObj P oid o (drawn env w.t 32) (drawn env (w.t + 1) 12)), ⟨w.store, w.t + 2⟩) := by
  rw [Object.seal, Prog.bind_eq, Prog.run_bind_ok env (Cryptor.run_encrypt L hr _ _ _ w)]
  rfl

theorem Access.run_seal (hr : RandOk env) (d : D1) (a : Access) (oid : Oid) (w : World) :
    (a.seal P oid d.accessCryptor).run env w = (.ok (sealedAcc P d oid a (drawn env w.t 32) (drawn env (w.t + 1) 12)),
      ⟨w.store, w.t + 2⟩) := by
  rw [Access.seal, Prog.bind_eq, Prog.run_bind_ok env (Cryptor.run_encrypt L hr _ _ _ w)]
  rfl

omit L

theorem run_verifyAccess {d : D1} (hid : IdpOk d env) (token : GoString) (scope : Scope) (w : World) :
    (d.verifyAccess token scope).run env w =
      (toOutcome (authenticate (whoIs d env w token) scope), afterIdp d env w token) := by
  rw [D1.verifyAccess, Prog.run_attempt, whoIs, afterIdp]
  obtain ⟨_, ⟨i, hi, _⟩ | ⟨e, he⟩⟩ := hid token w
  · cases hrun : (d.idProvider token).run env w with
    | mk o w' =>
      rw [hrun] at hi
      simp only at hi
      subst hi
      simp only [authenticate, scopeIn_eq]
      cases i.scopes.contains scope <;> rfl
  · cases hrun : (d.idProvider token).run env w with
    | mk o w' =>
      rw [hrun] at he
      simp only at he
      subst he
      rfl

/-- The beginning of every call on an existing object. -/
def guardProg (P : Prims) (d : D1) (token : GoString) (scope : Scope) (oid : Oid) : Prog Access :=
  (d.verifyAccess token scope).bind fun i => (getSealedAccess P oid).bind fun a => Prog.ofExcept (d.authorizeAccess P i scope a)

theorem update_eq (d : D1) (token : GoString) (oid : Oid) (o : Object) :
    d.update P token oid o = (guardProg P d token scopeUpdate oid).bind fun a =>
      (o.seal P oid d.objectCryptor).bind fun r =>
        ((⟨a.groups, some r.1⟩ : Access).seal P oid d.accessCryptor).bind fun sa =>
          (putSealedObject r.2 true).bind fun _ => putSealedAccess sa true := by
  simp only [guardProg, Prog.bind_assoc]; rfl

theorem decrypt_eq (d : D1) (token : GoString) (oid : Oid) :
    d.decrypt P token oid = (guardProg P d token scopeDecrypt oid).bind fun a =>
      (getSealedObject P oid).bind fun so => Prog.ofExcept (so.unseal P a.wrappedDEK d.objectCryptor) := by
  simp only [guardProg, Prog.bind_assoc]; rfl

theorem getAccessGroups_eq (d : D1) (token : GoString) (oid : Oid) :
    d.getAccessGroups P token oid = (guardProg P d token scopeGetAccessGroups oid).bind fun a => .ret a.groups := by
  simp only [guardProg, Prog.bind_assoc]; rfl

theorem authorizeIdentity_eq (d : D1) (token : GoString) (oid : Oid) :
    d.authorizeIdentity P token oid = (guardProg P d token scopeGetAccessGroups oid).bind fun _ => .ret () := by
  simp only [guardProg, Prog.bind_assoc]; rfl

theorem addGroupsToAccess_eq (d : D1) (token : GoString) (oid : Oid) (gs : List GoString) :
    d.addGroupsToAccess P token oid gs = (guardProg P d token scopeModifyAccessGroups oid).bind fun a =>
      (Prog.ofPanic (a.addGroups gs)).bind fun a => (a.seal P oid d.accessCryptor).bind fun sa => putSealedAccess sa true := by
  simp only [guardProg, Prog.bind_assoc]; rfl

theorem removeGroupsFromAccess_eq (d : D1) (token : GoString) (oid : Oid) (gs : List GoString) :
    d.removeGroupsFromAccess P token oid gs = (guardProg P d token scopeModifyAccessGroups oid).bind fun a =>
      ((a.removeGroups gs).seal P oid d.accessCryptor).bind fun sa => putSealedAccess sa true := by
  simp only [guardProg, Prog.bind_assoc]; rfl

include L

theorem run_guardProg (hf : NoFault env) {d : D1} (hid : IdpOk d env) {v : Vault} {w : World} (hR : Rel P d w.store v)
    (token : GoString) (scope : Scope) (oid : Oid) : ∃ w1, SameObjects w.store w1.store ∧
    match authenticate (whoIs d env w token) scope with
    | .error e => (guardProg P d token scope oid).run env w = (.err e, w1)
    | .ok i => match v oid with
      | none => (guardProg P d token scope oid).run env w = (.err .accessNotFound, w1)
      | some e => if allowed i scope e.members then
          ∃ a, (guardProg P d token scope oid).run env w = (.ok a, w1) ∧ AccAt P d w.store oid a ∧
            ObjAt P d w.store oid e.object a.wrappedDEK ∧ ∀ x, a.groups.has x = e.members x
        else (guardProg P d token scope oid).run env w = (.err .notAuthorized, w1) := by
  have hv := run_verifyAccess hid token scope w
  have hsame := (hid token w).1
  have hR1 : Rel P d (afterIdp d env w token).store v := hR.congr hsame
  cases hauth : authenticate (whoIs d env w token) scope with
  | error e =>
    rw [hauth] at hv
    exact ⟨_, hsame, by simp only; rw [guardProg, Prog.run_bind_err env hv]; rfl⟩
  | ok i =>
    rw [hauth] at hv
    have hi : whoIs d env w token = some i := by
      simp only [authenticate] at hauth
      split at hauth; · cases hauth
      split at hauth
      · cases hauth; assumption
      · cases hauth
    have hnd : (i.groups.map Prod.fst).Nodup := by
      rcases (hid token w).2 with ⟨j, hj, hn⟩ | ⟨e, he⟩
      · simp only [whoIs, hj, Option.some.injEq] at hi; subst hi; exact hn
      · simp only [whoIs, he] at hi; cases hi
    have hrel := hR1 oid
    refine ⟨(afterIdp d env w token).next (afterIdp d env w token).store, hsame, ?_⟩
    simp only [guardProg]
    rw [Prog.run_bind_ok env hv]
    cases hvo : v oid with
    | none =>
      rw [hvo] at hrel
      simp only at hrel ⊢
      rw [getSealedAccess, Prog.bind_eq, Prog.bind_assoc, Prog.run_bind_err env (run_ioGet_none hf _ _ _ _ hrel.2)]
      rfl
    | some e =>
      rw [hvo] at hrel
      simp only at hrel ⊢
      obtain ⟨a, ha, hob, hm⟩ := hrel
      obtain ⟨sa, hsa, hun⟩ := run_getSealedAccess L hf (env := env) ha
      have hauthz : d.authorizeAccess P i scope sa =
          if allowed i scope e.members = true then .ok a else .error .notAuthorized := by
        rw [D1.authorizeAccess, hun]
        simp only
        rw [allowed_eq i hnd scope a e.members hm]
      have hrun : ∀ K : SealedAccess → Prog Access, ((getSealedAccess P oid).bind K).run env (afterIdp d env w token) =
          (K sa).run env ((afterIdp d env w token).next (afterIdp d env w token).store) :=
        fun K => Prog.run_bind_ok env hsa
      rw [hrun, hauthz]
      obtain ⟨so, sa'⟩ := hsame oid.1
      cases allowed i scope e.members
      · simp
      · simp only [if_true]
        exact ⟨a, rfl, ha.congr sa'.symm, hob.congr so.symm, hm⟩

/-- Calls that are a guard followed by something. -/
theorem run_guarded (hf : NoFault env) {d : D1} (hid : IdpOk d env) {v : Vault} {w : World} (hR : Rel P d w.store v)
    (token : GoString) (scope : Scope) (oid : Oid) (K : Access → Prog Res) (f : Entry → Res × Vault)
    (hK : ∀ (e : Entry) (a : Access) (w1 : World), v oid = some e → Rel P d w1.store v → AccAt P d w1.store oid a →
      ObjAt P d w1.store oid e.object a.wrappedDEK → (∀ x, a.groups.has x = e.members x) →
      ∃ w2, (K a).run env w1 = (.ok (f e).1, w2) ∧ Rel P d w2.store (f e).2) :
    ∃ w', ((guardProg P d token scope oid).bind K).run env w =
        (toOutcome (guarded v (whoIs d env w token) scope oid f).1, w') ∧
      Rel P d w'.store (guarded v (whoIs d env w token) scope oid f).2 := by
  obtain ⟨w1, hs, h⟩ := run_guardProg L hf hid hR token scope oid
  have hR1 := hR.congr hs
  simp only [guarded]
  cases hauth : authenticate (whoIs d env w token) scope with
  | error e =>
    rw [hauth] at h
    exact ⟨w1, Prog.run_bind_err env h, hR1⟩
  | ok i =>
    rw [hauth] at h
    simp only at h ⊢
    cases hvo : v oid with
    | none =>
      rw [hvo] at h
      exact ⟨w1, Prog.run_bind_err env h, hR1⟩
    | some e =>
      rw [hvo] at h
      simp only at h ⊢
      cases hal : allowed i scope e.members with
      | false =>
        rw [hal] at h
        exact ⟨w1, Prog.run_bind_err env h, hR1⟩
      | true =>
        rw [hal] at h
        simp only [if_true] at h ⊢
        obtain ⟨a, hrun, ha, ho, hm⟩ := h
        obtain ⟨so, sa⟩ := hs oid.1
        obtain ⟨w2, h2, hR2⟩ := hK e a w1 hvo hR1 (ha.congr sa) (ho.congr so) hm
        exact ⟨w2, by rw [Prog.run_bind_ok env hrun, h2]; rfl, hR2⟩

omit L in
theorem has_setInsert (l : List GoString) (x : GoString) : GoSet.has (some l) x = decide (x ∈ l) := rfl

omit L in
theorem addToSet_some (l : List GoString) (gs : List GoString) : addToSet (some l) gs = some (some (gs.foldl setInsert l)) := by
  induction gs generalizing l with
  | nil => rfl
  | cons g gs ih => simp only [addToSet, List.foldl_cons]; exact ih _

omit L in
theorem has_sanList (l : List GoString) (x : GoString) : GoSet.has (some (sanList l)) x = l.any (fun g => sanitize g == x) := by
  rw [Bool.eq_iff_iff]
  simp only [GoSet.has, decide_eq_true_eq, mem_sanList, List.any_eq_true, beq_iff_eq]

/-- Writing a new access record. -/
theorem run_putAccess (hf : NoFault env) (hr : RandOk env) {d : D1} {w : World} {oid : Oid} (a : Access) {x : Bytes}
    (hx : w.store oid.1 dtAccess = some x) :
    (((a.seal P oid d.accessCryptor).bind fun sa => putSealedAccess sa true).run env w) =
      (.ok (), ⟨w.store.set oid.1 dtAccess (some (sealedAcc P d oid a (drawn env w.t 32) (drawn env (w.t + 1) 12)).toJ.render),
        w.t + 3⟩) := by
  rw [Prog.run_bind_ok env (Access.run_seal L hr d a oid w)]
  simp only [putSealedAccess, if_true]
  exact run_ioUpdate_some hf _ ⟨w.store, w.t + 2⟩ _ _ _ _ hx

/-- C02, one call: the code does what the vault does. -/
theorem run_call (hf : NoFault env) (hr : RandOk env) {d : D1} (hid : IdpOk d env) {v : Vault} {w : World}
    (hR : Rel P d w.store v) (c : Call) :
    ∃ w', (callProg P d c).run env w =
        (toOutcome (step sanitize v (whoIs d env w c.token) (freshOid d env w c.token) c).1, w') ∧
      Rel P d w'.store (step sanitize v (whoIs d env w c.token) (freshOid d env w c.token) c).2 := by
  cases c with
  | encrypt token o gs =>
    simp only [callProg, step, Call.token, D1.encrypt, Prog.bind_eq, Prog.bind_assoc]
    have hv := run_verifyAccess hid token scopeEncrypt w
    have hsame := (hid token w).1
    have hR1 : Rel P d (afterIdp d env w token).store v := hR.congr hsame
    cases hauth : authenticate (whoIs d env w token) scopeEncrypt with
    | error e =>
      rw [hauth] at hv
      exact ⟨_, Prog.run_bind_err env hv, hR1⟩
    | ok i =>
      rw [hauth] at hv
      rw [Prog.run_bind_ok env hv]
      generalize hw1 : afterIdp d env w token = w1 at *
      have hoid : newV4.run env w1 = (.ok (freshOid d env w token), ⟨w1.store, w1.t + 1⟩) := by
        rw [newV4, Prog.bind_eq, Prog.run_bind_ok env (run_randBytes hr w1 16), freshOid, hw1]
        rfl
      rw [Prog.run_bind_ok env hoid]
      generalize freshOid d env w token = oid at *
      rw [Prog.run_bind_ok env (Object.run_seal L hr _ _ _ _)]
      simp only [Access.addGroups, newAccess, addToSet_some, Option.map_some, Prog.ofPanic_some, Prog.ret_bind]
      rw [Prog.run_bind_ok env (Access.run_seal L hr _ _ _ _)]
      have hrel := hR1 oid
      cases hvo : v oid with
      | some e =>
        rw [hvo] at hrel
        obtain ⟨a, _, ⟨k, n, ho, _⟩, _⟩ := hrel
        have hput : (putSealedObject (sealedObj P oid o (drawn env (w1.t + 1) 32) (drawn env (w1.t + 1 + 1) 12)) false).run env
            ⟨w1.store, w1.t + 1 + 2 + 2⟩ = _ :=
          run_ioPut_some hf (onAlreadyExists .objectAlreadyExists) ⟨w1.store, w1.t + 1 + 2 + 2⟩ oid.1 dtObject _ _ ho
        exact ⟨_, Prog.run_bind_err env hput, hR1⟩
      | none =>
        rw [hvo] at hrel
        simp only at hrel ⊢
        have hput := run_ioPut_none hf (onAlreadyExists .objectAlreadyExists) ⟨w1.store, w1.t + 1 + 2 + 2⟩ oid.1 dtObject
          (sealedObj P oid o (drawn env (w1.t + 1) 32) (drawn env (w1.t + 1 + 1) 12)).toJ.render hrel.1
        have hput1 : (putSealedObject (sealedObj P oid o (drawn env (w1.t + 1) 32) (drawn env (w1.t + 1 + 1) 12)) false).run env
            ⟨w1.store, w1.t + 1 + 2 + 2⟩ = _ := hput
        rw [Prog.run_bind_ok env hput1]
        have hput2 : (putSealedAccess (sealedAcc P d oid ⟨some ((gs ++ [i.id]).foldl setInsert []),
            some (kwpBox P d.objectCryptor.kwp (drawn env (w1.t + 1) 32).1)⟩ (drawn env (w1.t + 1 + 2) 32)
            (drawn env (w1.t + 1 + 2 + 1) 12)) false).run env
            (World.next ⟨w1.store, w1.t + 1 + 2 + 2⟩ (w1.store.set oid.1 dtObject
              (some (sealedObj P oid o (drawn env (w1.t + 1) 32) (drawn env (w1.t + 1 + 1) 12)).toJ.render))) = _ :=
          run_ioPut_none hf (onAlreadyExists .accessAlreadyExists) _ oid.1 dtAccess _
            ((Store.set_other _ _ _ _ _ _ (by simp [dtAccess, dtObject])).trans hrel.2)
        rw [Prog.run_bind_ok env hput2]
        refine ⟨_, rfl, Rel.set hR1 oid _ ?_ ?_⟩
        · intro id hne
          constructor
          all_goals
            simp only
            rw [Store.set_other _ _ _ _ _ _ (by simp [hne]), Store.set_other _ _ _ _ _ _ (by simp [hne])]
        · simp only
          refine ⟨_, ⟨_, _, _, _, Store.set_same _ _ _ _, rfl⟩, ⟨_, drawn env (w1.t + 1 + 1) 12, ?_, rfl⟩, ?_⟩
          · rw [Store.set_other _ _ _ _ _ _ (by simp [dtAccess, dtObject]), Store.set_same]
          · intro x
            rw [has_sanList, Bool.eq_iff_iff]
            simp only [List.any_eq_true, mem_foldl_setInsert, List.not_mem_nil, false_or]
  | update token oid o =>
    simp only [callProg, step, Call.token, update_eq, Prog.bind_assoc]
    apply run_guarded L hf hid hR
    intro e a w1 hvo hR1 ha ho hm
    obtain ⟨k, n, hob, _⟩ := ho
    rw [Prog.run_bind_ok env (Object.run_seal L hr _ _ _ _), Prog.run_bind_ok env (Access.run_seal L hr _ _ _ _)]
    obtain ⟨l, dek, ak, an, hac, rfl⟩ := ha
    have h1 : (putSealedObject (sealedObj P oid o (drawn env w1.t 32) (drawn env (w1.t + 1) 12)) true).run env
        ⟨w1.store, w1.t + 2 + 2⟩ = _ := run_ioUpdate_some hf (onNotFound .objectNotFound) _ oid.1 dtObject _ _ hob
    rw [Prog.run_bind_ok env h1]
    have h2 : (putSealedAccess (sealedAcc P d oid ⟨some (sanList l),
        some (kwpBox P d.objectCryptor.kwp (drawn env w1.t 32).1)⟩ (drawn env (w1.t + 2) 32)
        (drawn env (w1.t + 2 + 1) 12)) true).run env (World.next ⟨w1.store, w1.t + 2 + 2⟩ (w1.store.set oid.1 dtObject
          (some (sealedObj P oid o (drawn env w1.t 32) (drawn env (w1.t + 1) 12)).toJ.render))) = _ :=
      run_ioUpdate_some hf (onNotFound .accessNotFound) _ oid.1 dtAccess _ _
        ((Store.set_other _ _ _ _ _ _ (by simp [dtAccess, dtObject])).trans hac)
    rw [Prog.run_bind_ok env h2]
    refine ⟨_, rfl, Rel.set hR1 oid _ ?_ ?_⟩
    · intro id hne
      constructor
      all_goals
        simp only
        rw [Store.set_other _ _ _ _ _ _ (by simp [hne]), Store.set_other _ _ _ _ _ _ (by simp [hne])]
    · simp only
      refine ⟨_, ⟨_, _, _, _, Store.set_same _ _ _ _, rfl⟩, ⟨_, drawn env (w1.t + 1) 12, ?_, rfl⟩, ?_⟩
      · rw [Store.set_other _ _ _ _ _ _ (by simp [dtAccess, dtObject]), Store.set_same]
      · intro x
        rw [← hm x, has_sanList, GoSet.has, Bool.eq_iff_iff]
        simp only [List.any_eq_true, beq_iff_eq, decide_eq_true_eq]
        constructor
        · rintro ⟨g, hg, rfl⟩; rw [mem_sanList_san _ _ hg]; exact hg
        · intro hx; exact ⟨x, hx, mem_sanList_san _ _ hx⟩
  | decrypt token oid =>
    simp only [callProg, step, Call.token, decrypt_eq, Prog.bind_assoc]
    apply run_guarded L hf hid hR
    intro e a w1 hvo hR1 ha ho hm
    obtain ⟨so, h1, h2⟩ := run_getSealedObject L hf (env := env) ho
    exact ⟨w1.next w1.store, by rw [Prog.run_bind_ok env h1, h2]; rfl, hR1⟩
  | delete token oid =>
    simp only [callProg, step, Call.token]
    have hv := run_verifyAccess hid token scopeDelete w
    have hsame := (hid token w).1
    have hR1 : Rel P d (afterIdp d env w token).store v := hR.congr hsame
    obtain ⟨w1, hs1, hg⟩ := run_guardProg L hf hid hR token scopeDelete oid
    simp only [D1.delete, Prog.bind_eq, Prog.bind_assoc]
    cases hauth : authenticate (whoIs d env w token) scopeDelete with
    | error e =>
      rw [hauth] at hv
      exact ⟨_, Prog.run_bind_err env hv, hR1⟩
    | ok i =>
      rw [hauth] at hv hg
      simp only at hg ⊢
      simp only [guardProg] at hg
      rw [Prog.run_bind_ok env hv] at hg ⊢
      have hrel := hR1 oid
      generalize afterIdp d env w token = w0 at *
      cases hvo : v oid with
      | none =>
        rw [hvo] at hrel
        have hget : (getSealedAccess P oid).run env w0 = (.err .accessNotFound, w0.next w0.store) := by
          rw [getSealedAccess, Prog.bind_eq, Prog.run_bind_err env (run_ioGet_none hf _ w0 _ _ hrel.2)]
          rfl
        rw [Prog.attempt_bind, Prog.run_attempt_err env hget]
        exact ⟨_, rfl, hR1⟩
      | some e =>
        rw [hvo] at hrel hg
        simp only at hrel hg ⊢
        obtain ⟨a, ha, ho, hm⟩ := hrel
        obtain ⟨sa, hsa, hun⟩ := run_getSealedAccess L hf (env := env) ha
        rw [Prog.attempt_bind, Prog.run_attempt_ok env hsa]
        rw [Prog.run_bind_ok env hsa] at hg
        cases hal : allowed i scopeDelete e.members with
        | false =>
          rw [hal] at hg
          simp only [Bool.false_eq_true, if_false] at hg ⊢
          simp only [Prog.bind_assoc]
          exact ⟨w1, Prog.run_bind_err env hg, hR.congr hs1⟩
        | true =>
          rw [hal] at hg
          simp only [if_true] at hg ⊢
          obtain ⟨a', hg', _, _, _⟩ := hg
          simp only [Prog.bind_assoc]
          rw [Prog.run_bind_ok env hg']
          have hd1 : (deleteSealedObject oid).run env w1 = _ := run_ioDelete hf .io w1 oid.1 dtObject
          rw [Prog.run_bind_ok env hd1]
          have hd2 : (deleteSealedAccess oid).run env (w1.next (w1.store.set oid.1 dtObject none)) = _ :=
            run_ioDelete hf .io _ oid.1 dtAccess
          rw [Prog.run_bind_ok env hd2]
          refine ⟨_, rfl, Rel.set (hR.congr hs1) oid _ ?_ ?_⟩
          · intro id hne
            constructor
            all_goals
              simp only
              rw [Store.set_other _ _ _ _ _ _ (by simp [hne]), Store.set_other _ _ _ _ _ _ (by simp [hne])]
          · simp only
            refine ⟨?_, Store.set_same _ _ _ _⟩
            rw [Store.set_other _ _ _ _ _ _ (by simp [dtAccess, dtObject]), Store.set_same]
  | getGroups token oid =>
    simp only [callProg, step, Call.token, getAccessGroups_eq, Prog.bind_assoc]
    apply run_guarded L hf hid hR
    intro e a w1 hvo hR1 ha ho hm
    refine ⟨w1, ?_, hR1⟩
    have : a.groups.has = e.members := funext hm
    simp only [Prog.ret_bind, Prog.run_ret, this]
  | addGroups token oid gs =>
    simp only [callProg, step, Call.token, addGroupsToAccess_eq, Prog.bind_assoc]
    apply run_guarded L hf hid hR
    intro e a w1 hvo hR1 ha ho hm
    obtain ⟨l, dek, ak, an, hac, rfl⟩ := ha
    simp only [Access.addGroups, addToSet_some, Option.map_some, Prog.ofPanic_some, Prog.ret_bind]
    have hp := run_putAccess L hf hr (d := d) (w := w1) (oid := oid) ⟨some (gs.foldl setInsert (sanList l)), dek⟩ hac
    rw [← Prog.bind_assoc, Prog.run_bind_ok env hp]
    refine ⟨_, rfl, Rel.set hR1 oid _ ?_ ?_⟩
    · intro id hne
      constructor
      all_goals
        simp only
        rw [Store.set_other _ _ _ _ _ _ (by simp [hne])]
    · simp only
      refine ⟨_, ⟨_, _, _, _, Store.set_same _ _ _ _, rfl⟩, ?_, ?_⟩
      · exact ho.congr (Store.set_other _ _ _ _ _ _ (by simp [dtAccess, dtObject]))
      · intro x
        simp only
        rw [← hm x, has_sanList, GoSet.has, Bool.eq_iff_iff]
        simp only [List.any_eq_true, beq_iff_eq, Bool.or_eq_true, decide_eq_true_eq, mem_foldl_setInsert]
        constructor
        · rintro ⟨g, hg | hg, rfl⟩
          · rw [mem_sanList_san _ _ hg]; exact .inl hg
          · exact .inr ⟨g, hg, rfl⟩
        · rintro (h | ⟨g, hg, rfl⟩)
          · exact ⟨x, .inl h, mem_sanList_san _ _ h⟩
          · exact ⟨g, .inr hg, rfl⟩
  | removeGroups token oid gs =>
    simp only [callProg, step, Call.token, removeGroupsFromAccess_eq, Prog.bind_assoc]
    apply run_guarded L hf hid hR
    intro e a w1 hvo hR1 ha ho hm
    obtain ⟨l, dek, ak, an, hac, rfl⟩ := ha
    simp only [Access.removeGroups, removeFromSet, Option.map_some]
    have hp := run_putAccess L hf hr (d := d) (w := w1) (oid := oid) ⟨some (gs.foldl setErase (sanList l)), dek⟩ hac
    rw [← Prog.bind_assoc, Prog.run_bind_ok env hp]
    refine ⟨_, rfl, Rel.set hR1 oid _ ?_ ?_⟩
    · intro id hne
      constructor
      all_goals
        simp only
        rw [Store.set_other _ _ _ _ _ _ (by simp [hne])]
    · simp only
      refine ⟨_, ⟨_, _, _, _, Store.set_same _ _ _ _, rfl⟩, ?_, ?_⟩
      · exact ho.congr (Store.set_other _ _ _ _ _ _ (by simp [dtAccess, dtObject]))
      · intro x
        simp only
        rw [← hm x, has_sanList, GoSet.has, Bool.eq_iff_iff]
        simp only [List.any_eq_true, beq_iff_eq, Bool.and_eq_true, decide_eq_true_eq, mem_foldl_setErase, Bool.not_eq_true',
          List.contains_eq_mem, decide_eq_false_iff_not]
        constructor
        · rintro ⟨g, ⟨hg, hn⟩, rfl⟩
          rw [mem_sanList_san _ _ hg]; exact ⟨hg, hn⟩
        · rintro ⟨h, hn⟩
          exact ⟨x, ⟨h, hn⟩, mem_sanList_san _ _ h⟩
  | authorize token oid =>
    simp only [callProg, step, Call.token, authorizeIdentity_eq, Prog.bind_assoc]
    apply run_guarded L hf hid hR
    intro e a w1 hvo hR1 ha ho hm
    exact ⟨w1, rfl, hR1⟩

end

end D1
