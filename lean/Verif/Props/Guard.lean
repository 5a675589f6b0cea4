import Verif.Props.Vault
import Verif.Proofs.Yields
/-!
# D1 against an arbitrary IO Provider: C03, C04, C05, C19

`Prog.Yields p tr out` says that `p`, answered in any way at all, can perform the effects `tr` and end with `out`.
-/
namespace D1
open Spec Prog

/-- The scope that the documentation of each method names (d1.go:101-479). -/
def docScope : Call → Scope
  | .encrypt .. => scopeEncrypt
  | .update .. => scopeUpdate
  | .decrypt .. => scopeDecrypt
  | .delete .. => scopeDelete
  | .getGroups .. => scopeGetAccessGroups
  | .addGroups .. => scopeModifyAccessGroups
  | .removeGroups .. => scopeModifyAccessGroups
  | .authorize .. => scopeGetAccessGroups

/-- Effects that change the store. -/
def Eff.isWrite : Eff → Bool
  | .put .. | .update .. | .delete .. => true
  | _ => false

section
variable {P : Prims} {d : D1}

theorem callProg_head (c : Call) : ∃ K, callProg P d c = (d.verifyAccess c.token (docScope c)).bind K := by
  cases c <;> simp only [callProg, D1.encrypt, D1.delete, update_eq, decrypt_eq, getAccessGroups_eq, addGroupsToAccess_eq,
    removeGroupsFromAccess_eq, authorizeIdentity_eq, guardProg, Prog.bind_eq, Prog.bind_assoc, Call.token, docScope]
  all_goals exact ⟨_, rfl⟩

/-- The program of an operation can end in only one way after a given beginning. -/
theorem yields_unique {α : Type} {p : Prog α} {tr tr' : List Event} {o o' : Outcome α} (h : Yields p tr o)
    (h' : Yields p tr' o') (hp : tr <+: tr') : tr' = tr ∧ o' = o := by
  obtain ⟨t, ht⟩ := hp
  have := yields_prefix h h' (.inl ht)
  subst this
  exact ⟨rfl, yields_det h' h⟩

/-! ## C03, C04 -/

/-- C03: when the Identity Provider rejects the token, the call ends there with `ErrNotAuthenticated`: nothing was asked of
the IO Provider, the random source or the clock beyond what the Identity Provider itself asked (`tr`). -/
theorem C03_unauthenticated (c : Call) {tr : List Event} {e : Err} (hrej : Yields (d.idProvider c.token) tr (.err e)) :
    Yields (callProg P d c) tr (.err .notAuthenticated) ∧
      ∀ tr' out, Yields (callProg P d c) tr' out → tr <+: tr' → tr' = tr ∧ out = .err .notAuthenticated := by
  have h : Yields (callProg P d c) tr (.err .notAuthenticated) := by
    obtain ⟨K, hK⟩ := callProg_head (P := P) (d := d) c
    rw [hK, yields_bind]
    refine .inr (.inl ⟨_, ?_, rfl⟩)
    rw [D1.verifyAccess, yields_attempt]
    exact .inr (.inl ⟨tr, [], e, by simp, hrej, .err _⟩)
  exact ⟨h, fun tr' out h' hp => yields_unique h h' hp⟩

/-- C04: when the caller's own scopes lack the documented scope, the call ends there with `ErrNotAuthorized`. -/
theorem C04_scope (c : Call) {tr : List Event} {i : Identity} (hacc : Yields (d.idProvider c.token) tr (.ok i))
    (hs : scopeIn (docScope c) i.scopes = false) :
    Yields (callProg P d c) tr (.err .notAuthorized) ∧
      ∀ tr' out, Yields (callProg P d c) tr' out → tr <+: tr' → tr' = tr ∧ out = .err .notAuthorized := by
  have h : Yields (callProg P d c) tr (.err .notAuthorized) := by
    obtain ⟨K, hK⟩ := callProg_head (P := P) (d := d) c
    rw [hK, yields_bind]
    refine .inr (.inl ⟨_, ?_, rfl⟩)
    rw [D1.verifyAccess, yields_attempt]
    refine .inl ⟨tr, [], i, by simp, hacc, ?_⟩
    rw [scopeIn_eq] at hs
    simp [hs]
  exact ⟨h, fun tr' out h' hp => yields_unique h h' hp⟩

/-- Conversely, anything but `ErrNotAuthenticated`, or any effect after the Identity Provider's, needs an accepted token; and
beyond that anything but `ErrNotAuthorized` needs the documented scope. -/
theorem C04_needed (c : Call) {tr : List Event} {r : Res} (h : Yields (callProg P d c) tr (.ok r)) :
    ∃ trI trR i, tr = trI ++ trR ∧ Yields (d.idProvider c.token) trI (.ok i) ∧ scopeIn (docScope c) i.scopes = true := by
  obtain ⟨K, hK⟩ := callProg_head (P := P) (d := d) c
  rw [hK, yields_bind_ok] at h
  obtain ⟨tr1, tr2, i, rfl, h1, _⟩ := h
  rw [D1.verifyAccess, yields_attempt] at h1
  rcases h1 with ⟨t1, t2, j, rfl, h2, h3⟩ | ⟨_, _, _, _, _, h3⟩ | ⟨_, h3⟩ | ⟨_, h3⟩
  · simp only at h3
    split at h3
    · simp at h3
    · rename_i hc
      obtain ⟨rfl, h3⟩ := yields_ret.mp h3
      refine ⟨t1, tr2, j, by simp, h2, ?_⟩
      rw [scopeIn_eq]; simpa using hc
  · simp at h3
  · cases h3
  · cases h3

/-- Both situations occur. -/
example : Yields (toyD1.idProvider []) [] (.err .idNotAuthenticated) ∧
    Yields (toyD1.idProvider [7]) [] (.ok ⟨[7], scopeAll, [([50], ⟨[50], scopeAll⟩)]⟩) := ⟨.err _, .ret _⟩
example : scopeIn (docScope (.decrypt [7] nilOid)) scopeEncrypt = false := by decide

/-! ## C05 -/

/-- The bytes are an access record that the access cryptor accepts as bound to this object ID. -/
def Accepts (P : Prims) (d : D1) (oid : Oid) (bytes : Bytes) (a : Access) : Prop :=
  ∃ sa, (P.unmarshal bytes).bind (SealedAccess.ofJ P) = some sa ∧
    d.accessCryptor.decrypt P Access.ofJ (J.ofBytes (some oid.1)) sa.wrappedKey.bytes sa.ciphertext.bytes = .ok a

/-- The list names an ID of the caller, and that ID carries the scope. -/
def Lists (i : Identity) (s : Scope) (a : Access) : Prop :=
  ∃ x ∈ i.getIDs, a.groups.has x = true ∧ scopeIn s (i.getIDScope x) = true

/-- The beginning of the trace shows that the call was authorized for the object. -/
def Authorized (P : Prims) (d : D1) (token : GoString) (s : Scope) (oid : Oid) (tr : List Event) : Prop :=
  ∃ trI rest i bytes a, tr = trI ++ ⟨.get oid.1 dtAccess, (.ok bytes : Except IoErr Bytes)⟩ :: rest ∧
    Yields (d.idProvider token) trI (.ok i) ∧ scopeIn s i.scopes = true ∧ Accepts P d oid bytes a ∧ Lists i s a

theorem yields_ioGet {f : IoErr → Err} {id : Bytes} {dt : DataType} {tr : List Event} {o : Outcome Bytes} :
    Yields (ioGet f id dt) tr o ↔
      (∃ b, tr = [⟨.get id dt, (.ok b : Except IoErr Bytes)⟩] ∧ o = .ok b) ∨
        ∃ e, tr = [⟨.get id dt, (.error e : Except IoErr Bytes)⟩] ∧ o = .err (f e) := by
  rw [ioGet, yields_op]
  constructor
  · rintro ⟨r, tr', rfl, h⟩
    cases r with
    | ok b => obtain ⟨rfl, rfl⟩ := yields_ret.mp h; exact .inl ⟨b, rfl, rfl⟩
    | error e => obtain ⟨rfl, rfl⟩ := yields_err.mp h; exact .inr ⟨e, rfl, rfl⟩
  · rintro (⟨b, rfl, rfl⟩ | ⟨e, rfl, rfl⟩)
    · exact ⟨.ok b, [], rfl, .ret b⟩
    · exact ⟨.error e, [], rfl, .err _⟩

theorem yields_getSealedAccess {oid : Oid} {tr : List Event} {o : Outcome SealedAccess} :
    Yields (getSealedAccess P oid) tr o ↔
      (∃ b sa, tr = [⟨.get oid.1 dtAccess, (.ok b : Except IoErr Bytes)⟩] ∧
        (P.unmarshal b).bind (SealedAccess.ofJ P) = some sa ∧ o = .ok { sa with oid := oid }) ∨
      (∃ b, tr = [⟨.get oid.1 dtAccess, (.ok b : Except IoErr Bytes)⟩] ∧
        (P.unmarshal b).bind (SealedAccess.ofJ P) = none ∧ o = .err .json) ∨
      ∃ e, tr = [⟨.get oid.1 dtAccess, (.error e : Except IoErr Bytes)⟩] ∧ o = .err (onNotFound .accessNotFound e) := by
  simp only [getSealedAccess, Prog.bind_eq, yields_bind, yields_ioGet]
  constructor
  · rintro (⟨tr1, tr2, b, rfl, ⟨b', rfl, hb⟩ | ⟨e, _, h⟩, h2⟩ | ⟨e, ⟨_, _, h⟩ | ⟨e', rfl, h⟩, rfl⟩ | ⟨⟨_, _, h⟩ | ⟨_, _, h⟩, _⟩ |
      ⟨⟨_, _, h⟩ | ⟨_, _, h⟩, _⟩)
    · cases hb
      cases hu : (P.unmarshal b).bind (SealedAccess.ofJ P) with
      | none =>
        rw [hu] at h2
        obtain ⟨rfl, rfl⟩ := yields_err.mp h2
        exact .inr (.inl ⟨b, rfl, hu, rfl⟩)
      | some sa =>
        rw [hu] at h2
        obtain ⟨rfl, rfl⟩ := yields_ret.mp h2
        exact .inl ⟨b, sa, rfl, hu, rfl⟩
    all_goals cases h
    exact .inr (.inr ⟨e', rfl, rfl⟩)
  · rintro (⟨b, sa, rfl, hu, rfl⟩ | ⟨b, rfl, hu, rfl⟩ | ⟨e, rfl, rfl⟩)
    · refine .inl ⟨_, [], b, rfl, .inl ⟨b, rfl, rfl⟩, ?_⟩
      rw [hu]; exact .ret _
    · refine .inl ⟨_, [], b, rfl, .inl ⟨b, rfl, rfl⟩, ?_⟩
      rw [hu]; exact .err _
    · exact .inr (.inl ⟨_, .inr ⟨e, rfl, rfl⟩, rfl⟩)

theorem yields_verifyAccess_ok {token : GoString} {s : Scope} {tr : List Event} {i : Identity} :
    Yields (d.verifyAccess token s) tr (.ok i) ↔ Yields (d.idProvider token) tr (.ok i) ∧ scopeIn s i.scopes = true := by
  rw [D1.verifyAccess, yields_attempt]
  constructor
  · rintro (⟨t1, t2, j, rfl, h2, h3⟩ | ⟨_, _, _, _, _, h3⟩ | ⟨_, h3⟩ | ⟨_, h3⟩)
    · simp only at h3
      split at h3
      · simp at h3
      · rename_i hc
        obtain ⟨rfl, h3⟩ := yields_ret.mp h3
        cases h3
        exact ⟨by simpa using h2, by rw [scopeIn_eq]; simpa using hc⟩
    · simp at h3
    · cases h3
    · cases h3
  · rintro ⟨h1, h2⟩
    refine .inl ⟨tr, [], i, by simp, h1, ?_⟩
    rw [scopeIn_eq] at h2
    simp [h2]

theorem authorizeAccess_ok {i : Identity} {s : Scope} {sa : SealedAccess} {a : Access} :
    d.authorizeAccess P i s sa = .ok a ↔ sa.unseal P d.accessCryptor = .ok a ∧ Lists i s a := by
  rw [D1.authorizeAccess]
  cases h : sa.unseal P d.accessCryptor with
  | error e => simp
  | ok b =>
    simp only [List.any_eq_true, Access.containsGroups, List.all_cons, List.all_nil, Bool.and_true, Bool.and_eq_true, Lists,
      scopeIn_eq]
    constructor
    · intro h1
      split at h1
      · cases h1; exact ⟨rfl, by assumption⟩
      · cases h1
    · rintro ⟨h1, h2⟩
      cases h1
      rw [if_pos h2]

/-- Exactly when the guard lets a call through. -/
theorem yields_guardProg_ok {token : GoString} {s : Scope} {oid : Oid} {tr : List Event} {a : Access} :
    Yields (guardProg P d token s oid) tr (.ok a) ↔
      ∃ trI i bytes, tr = trI ++ [⟨.get oid.1 dtAccess, (.ok bytes : Except IoErr Bytes)⟩] ∧
        Yields (d.idProvider token) trI (.ok i) ∧ scopeIn s i.scopes = true ∧ Accepts P d oid bytes a ∧ Lists i s a := by
  simp only [guardProg, yields_bind_ok, yields_verifyAccess_ok]
  constructor
  · rintro ⟨trI, tr2, i, rfl, ⟨hi, hs⟩, tr3, tr4, sa, rfl, h1, h2⟩
    rcases yields_getSealedAccess.mp h1 with ⟨b, sa', rfl, hu, h⟩ | ⟨_, _, _, h⟩ | ⟨_, _, h⟩ <;> cases h
    cases ha : d.authorizeAccess P i s { sa' with oid := oid } with
    | error e => rw [ha] at h2; simp at h2
    | ok a' =>
      rw [ha] at h2
      obtain ⟨rfl, h⟩ := yields_ret.mp h2
      cases h
      obtain ⟨h3, h4⟩ := authorizeAccess_ok.mp ha
      exact ⟨trI, i, b, rfl, hi, hs, ⟨sa', hu, h3⟩, h4⟩
  · rintro ⟨trI, i, b, rfl, hi, hs, ⟨sa, hu, h3⟩, h4⟩
    refine ⟨trI, _, i, rfl, ⟨hi, hs⟩, _, [], _, by simp, yields_getSealedAccess.mpr (.inl ⟨b, sa, rfl, hu, rfl⟩), ?_⟩
    rw [(authorizeAccess_ok (sa := { sa with oid := oid })).mpr ⟨h3, h4⟩]
    exact .ret _

/-- When the guard does not let the call through, it wrote nothing. -/
theorem guardProg_reads {token : GoString} {s : Scope} {oid : Oid} {tr trI trR : List Event} {o : Outcome Access} {i : Identity}
    (h : Yields (guardProg P d token s oid) tr o) (htr : tr = trI ++ trR) (hi : Yields (d.idProvider token) trI (.ok i)) :
    ∀ ev ∈ trR, ev.1.isWrite = false := by
  subst htr
  have hhead : ∀ tr' o', Yields (d.verifyAccess token s) tr' o' → trI <+: tr' ∨ tr' <+: trI → tr' = trI := by
    intro tr' o' hv hp
    rw [D1.verifyAccess, yields_attempt] at hv
    have hpre : ∀ {t o}, Yields (d.idProvider token) t o → (trI <+: t ∨ t <+: trI) → t = trI := by
      rintro t o ht (⟨x, hx⟩ | ⟨x, hx⟩)
      · exact (yields_prefix hi ht (.inl hx)).symm
      · exact yields_prefix ht hi (.inl hx)
    rcases hv with ⟨t1, t2, j, rfl, h2, h3⟩ | ⟨t1, t2, j, rfl, h2, h3⟩ | ⟨h2, _⟩ | ⟨h2, _⟩
    · have : t2 = [] := by
        simp only at h3
        split at h3
        · exact (yields_err.mp h3).1
        · exact (yields_ret.mp h3).1
      subst this
      simp only [List.append_nil] at hp ⊢
      exact hpre h2 hp
    · have : t2 = [] := (yields_err.mp h3).1
      subst this
      simp only [List.append_nil] at hp ⊢
      exact hpre h2 hp
    · exact hpre h2 hp
    · exact hpre h2 hp
  rw [guardProg, yields_bind] at h
  rcases h with ⟨tr1, tr2, j, he, h1, h2⟩ | ⟨e, h1, _⟩ | ⟨h1, _⟩ | ⟨h1, _⟩
  · have : tr1 = trI := hhead _ _ h1 (List.prefix_or_prefix_of_prefix (List.prefix_append trI trR)
      (by rw [he]; exact List.prefix_append _ _))
    subst this
    have := List.append_cancel_left he
    subst this
    have hget : ∀ t o, Yields (getSealedAccess P oid) t o → ∀ ev ∈ t, ev.1.isWrite = false := by
      intro t o ht ev hev
      rcases yields_getSealedAccess.mp ht with ⟨b, sa', rfl, _, _⟩ | ⟨_, rfl, _, _⟩ | ⟨_, rfl, _⟩ <;>
        (simp only [List.mem_singleton] at hev; subst hev; rfl)
    rw [yields_bind] at h2
    rcases h2 with ⟨t1, t2, sa, rfl, h1, h2⟩ | ⟨e, h1, _⟩ | ⟨h1, _⟩ | ⟨h1, _⟩
    · have : t2 = [] := by
        cases ha : d.authorizeAccess P j s sa <;> rw [ha] at h2
        · exact (yields_err.mp h2).1
        · exact (yields_ret.mp h2).1
      subst this
      simpa using hget _ _ h1
    · exact hget _ _ h1
    · exact hget _ _ h1
    · exact hget _ _ h1
  all_goals
    have := hhead _ _ h1 (.inl (List.prefix_append _ _))
    have : trR = [] := by simpa using this
    subst this
    simp

theorem authorized_of_guard {token : GoString} {s : Scope} {oid : Oid} {tr1 tr2 : List Event} {a : Access}
    (h : Yields (guardProg P d token s oid) tr1 (.ok a)) : Authorized P d token s oid (tr1 ++ tr2) := by
  obtain ⟨trI, i, b, rfl, h1, h2, h3, h4⟩ := yields_guardProg_ok.mp h
  exact ⟨trI, tr2, i, b, a, by simp, h1, h2, h3, h4⟩

/-- Calls that start with the guard. -/
theorem guarded_authorized {α : Type} {token : GoString} {s : Scope} {oid : Oid} {K : Access → Prog α} {tr : List Event}
    {out : Outcome α} (h : Yields ((guardProg P d token s oid).bind K) tr out)
    (hpos : (∃ r, out = .ok r) ∨ ∃ trI trR i, tr = trI ++ trR ∧ Yields (d.idProvider token) trI (.ok i) ∧
      ∃ ev ∈ trR, ev.1.isWrite = true) : Authorized P d token s oid tr := by
  rcases yields_bind.mp h with ⟨tr1, tr2, a, rfl, h1, h2⟩ | h'
  · exact authorized_of_guard h1
  · exfalso
    rcases hpos with ⟨r, rfl⟩ | ⟨trI, trR, i, he, hi, ev, hev, hw⟩
    · rcases h' with ⟨e, _, h⟩ | ⟨_, h⟩ | ⟨_, h⟩ <;> cases h
    · have : ev.1.isWrite = false := by
        rcases h' with ⟨e, h, _⟩ | ⟨h, _⟩ | ⟨h, _⟩ <;> exact guardProg_reads h he hi ev hev
      rw [hw] at this; cases this

/-- `Delete` as the guard, except that a missing access record counts as success. -/
theorem delete_yields {token : GoString} {oid : Oid} {tr : List Event} {out : Outcome Unit}
    (h : Yields (d.delete P token oid) tr out) :
    Yields ((guardProg P d token scopeDelete oid).bind fun _ => (deleteSealedObject oid).bind fun _ => deleteSealedAccess oid) tr out ∨
      (out = .ok () ∧ Yields (guardProg P d token scopeDelete oid) tr (.err .accessNotFound)) := by
  simp only [D1.delete, Prog.bind_eq] at h
  simp only [guardProg, Prog.bind_assoc]
  rcases yields_bind.mp h with ⟨tr1, tr2, i, rfl, h1, h2⟩ | h'
  · rcases yields_attempt.mp h2 with ⟨t1, t2, sa, rfl, h3, h4⟩ | ⟨t1, t2, e, rfl, h3, h4⟩ | ⟨h3, rfl⟩ | ⟨h3, rfl⟩
    · exact .inl (yields_bind.mpr (.inl ⟨_, _, i, rfl, h1, yields_bind.mpr (.inl ⟨_, _, sa, rfl, h3, h4⟩)⟩))
    · by_cases he : e = .accessNotFound
      · subst he
        obtain ⟨rfl, rfl⟩ := yields_ret.mp h4
        exact .inr ⟨rfl, yields_bind.mpr (.inl ⟨_, _, i, rfl, h1, yields_bind.mpr (.inr (.inl ⟨_, by simpa using h3, rfl⟩))⟩)⟩
      · have h5 : Yields (.err e : Prog Unit) t2 out := by
          revert h4; cases e <;> first | exact id | exact absurd rfl he
        obtain ⟨rfl, rfl⟩ := yields_err.mp h5
        exact .inl (yields_bind.mpr (.inl ⟨_, _, i, rfl, h1, yields_bind.mpr (.inr (.inl ⟨_, by simpa using h3, rfl⟩))⟩))
    · exact .inl (yields_bind.mpr (.inl ⟨_, _, i, rfl, h1, yields_bind.mpr (.inr (.inr (.inl ⟨h3, rfl⟩)))⟩))
    · exact .inl (yields_bind.mpr (.inl ⟨_, _, i, rfl, h1, yields_bind.mpr (.inr (.inr (.inr ⟨h3, rfl⟩)))⟩))
  · exact .inl (yields_bind.mpr (.inr h'))

/-- C05: whatever the provider answers, a call on an object gives a positive result (`Delete` of a missing object aside) or
issues a write only if the first thing it did after authentication was to fetch the access record of exactly that object,
and that record was accepted as bound to the ID and lists an ID of the caller carrying the required scope. -/
theorem C05_authorized {c : Call} {oid : Oid} (hc : c.onOid = some oid) {tr : List Event} {out : Outcome Res}
    (h : Yields (callProg P d c) tr out)
    (hpos : ((∃ r, out = .ok r) ∧ ∀ t, c ≠ .delete t oid) ∨ ∃ trI trR i, tr = trI ++ trR ∧
      Yields (d.idProvider c.token) trI (.ok i) ∧ ∃ ev ∈ trR, ev.1.isWrite = true) :
    Authorized P d c.token (docScope c) oid tr := by
  cases c <;> simp only [Spec.Call.onOid, Option.some.injEq, reduceCtorEq] at hc <;> subst hc
  case delete token o =>
    simp only [callProg] at h
    replace hpos := hpos.resolve_left (fun h => h.2 token rfl)
    have hstrip : ∃ out', Yields (d.delete P token o) tr out' := by
      rcases yields_bind.mp h with ⟨t1, t2, a, rfl, h1, h2⟩ | ⟨e, h1, _⟩ | ⟨h1, _⟩ | ⟨h1, _⟩
      · obtain ⟨rfl, _⟩ := yields_ret.mp h2
        exact ⟨_, by simpa using h1⟩
      all_goals exact ⟨_, h1⟩
    obtain ⟨out', h'⟩ := hstrip
    rcases delete_yields h' with h1 | ⟨_, h1⟩
    · exact guarded_authorized h1 (.inr hpos)
    · exfalso
      obtain ⟨trI, trR, i, he, hi, ev, hev, hw⟩ := hpos
      have := guardProg_reads h1 he hi ev hev
      rw [hw] at this; cases this
  all_goals
    simp only [callProg, update_eq, decrypt_eq, getAccessGroups_eq, addGroupsToAccess_eq, removeGroupsFromAccess_eq,
      authorizeIdentity_eq, Prog.bind_assoc] at h
    exact guarded_authorized h (hpos.imp (fun h => h.1) id)

/-- C05 applies to real runs: in the concrete setting the creator's `Decrypt` succeeds, so the trace shows the authorization. -/
example (tr : List Event) (r : Res) (h : Yields (callProg toyPrims toyD1 (.decrypt [7] nilOid)) tr (.ok r)) :
    Authorized toyPrims toyD1 [7] scopeDecrypt nilOid tr :=
  C05_authorized (c := .decrypt [7] nilOid) rfl h (.inl ⟨⟨r, rfl⟩, fun _ h => by cases h⟩)

/-! ## C19 -/

/-- The IO Provider answered this request with an error. -/
def ioFailed : Event → Prop
  | ⟨.put .., r⟩ => ∃ e : IoErr, r = .error e
  | ⟨.get .., r⟩ => ∃ e : IoErr, r = .error e
  | ⟨.update .., r⟩ => ∃ e : IoErr, r = .error e
  | ⟨.delete .., r⟩ => ∃ e : IoErr, r = .error e
  | _ => False

/-- Success means that no request failed. -/
def Strict {α : Type} (p : Prog α) : Prop := ∀ tr a, Yields p tr (.ok a) → ∀ ev ∈ tr, ¬ ioFailed ev

theorem Strict.bind {α β : Type} {p : Prog α} {k : α → Prog β} (hp : Strict p) (hk : ∀ a, Strict (k a)) : Strict (p.bind k) := by
  intro tr b h ev hev
  obtain ⟨t1, t2, a, rfl, h1, h2⟩ := yields_bind_ok.mp h
  rcases List.mem_append.mp hev with h | h
  · exact hp _ _ h1 ev h
  · exact hk a _ _ h2 ev h

theorem Strict.ret {α : Type} (a : α) : Strict (.ret a) := by
  intro tr b h ev hev
  rw [(yields_ret.mp h).1] at hev; cases hev

theorem Strict.ofExcept {α : Type} (x : Except Err α) : Strict (Prog.ofExcept x) := by
  cases x
  · intro tr b h; simp at h
  · exact Strict.ret _

theorem Strict.ofPanic {α : Type} (x : Option α) : Strict (Prog.ofPanic x) := by
  cases x
  · intro tr b h; simp at h
  · exact Strict.ret _

theorem Strict.rand (n : Nat) : Strict (randBytes n) := by
  intro tr b h ev hev
  rcases yields_rand.mp h with ⟨b, rfl, _⟩ | ⟨_, h'⟩
  · simp only [List.mem_singleton] at hev; subst hev; exact id
  · exact absurd h' (by simp)

theorem Strict.ioGet (f : IoErr → Err) (id : Bytes) (dt : DataType) : Strict (ioGet f id dt) := by
  intro tr b h ev hev
  rcases yields_ioGet.mp h with ⟨b, rfl, _⟩ | ⟨e, _, h'⟩
  · simp only [List.mem_singleton] at hev; subst hev; rintro ⟨e, he⟩; cases he
  · exact absurd h' (by simp)

theorem Strict.ioPut (f : IoErr → Err) (id : Bytes) (dt : DataType) (b : Bytes) : Strict (ioPut f id dt b) := by
  intro tr a h ev hev
  rw [D1.ioPut, yields_op] at h
  obtain ⟨r, tr', rfl, h⟩ := h
  cases r with
  | ok u =>
    obtain ⟨rfl, _⟩ := yields_ret.mp h
    simp only [List.mem_singleton] at hev; subst hev; rintro ⟨e, he⟩; cases he
  | error e => simp at h

theorem Strict.ioUpdate (f : IoErr → Err) (id : Bytes) (dt : DataType) (b : Bytes) : Strict (ioUpdate f id dt b) := by
  intro tr a h ev hev
  rw [D1.ioUpdate, yields_op] at h
  obtain ⟨r, tr', rfl, h⟩ := h
  cases r with
  | ok u =>
    obtain ⟨rfl, _⟩ := yields_ret.mp h
    simp only [List.mem_singleton] at hev; subst hev; rintro ⟨e, he⟩; cases he
  | error e => simp at h

theorem Strict.ioDelete (f : IoErr → Err) (id : Bytes) (dt : DataType) : Strict (ioDelete f id dt) := by
  intro tr a h ev hev
  rw [D1.ioDelete, yields_op] at h
  obtain ⟨r, tr', rfl, h⟩ := h
  cases r with
  | ok u =>
    obtain ⟨rfl, _⟩ := yields_ret.mp h
    simp only [List.mem_singleton] at hev; subst hev; rintro ⟨e, he⟩; cases he
  | error e => simp at h

theorem Strict.gcmEncrypt (p a k : Bytes) : Strict (gcmEncrypt P p a k) := by
  unfold D1.gcmEncrypt
  split
  · intro tr b h; simp at h
  · exact Strict.bind (Strict.rand _) (fun _ => Strict.ret _)

theorem Strict.encrypt (c : Cryptor) (p a : J) : Strict (c.encrypt P p a) :=
  Strict.bind (Strict.rand _) fun _ => Strict.bind (Strict.gcmEncrypt _ _ _) fun _ =>
    Strict.bind (Strict.ofExcept _) fun _ => Strict.ret _

theorem Strict.sealObject (o : Object) (oid : Oid) (c : Cryptor) : Strict (o.seal P oid c) :=
  Strict.bind (Strict.encrypt _ _ _) fun _ => Strict.ret _

theorem Strict.sealAccess (a : Access) (oid : Oid) (c : Cryptor) : Strict (a.seal P oid c) :=
  Strict.bind (Strict.encrypt _ _ _) fun _ => Strict.ret _

theorem Strict.getSealedAccess (oid : Oid) : Strict (getSealedAccess P oid) :=
  Strict.bind (Strict.ioGet _ _ _) fun b => by
    cases (P.unmarshal b).bind (SealedAccess.ofJ P) with
    | none => intro tr b h; simp at h
    | some _ => exact Strict.ret _

theorem Strict.getSealedObject (oid : Oid) : Strict (getSealedObject P oid) :=
  Strict.bind (Strict.ioGet _ _ _) fun b => by
    cases (P.unmarshal b).bind (SealedObject.ofJ P) with
    | none => intro tr b h; simp at h
    | some _ => exact Strict.ret _

theorem Strict.putSealedObject (o : SealedObject) (u : Bool) : Strict (putSealedObject o u) := by
  cases u
  · exact Strict.ioPut _ _ _ _
  · exact Strict.ioUpdate _ _ _ _

theorem Strict.putSealedAccess (o : SealedAccess) (u : Bool) : Strict (putSealedAccess o u) := by
  cases u
  · exact Strict.ioPut _ _ _ _
  · exact Strict.ioUpdate _ _ _ _

/-- After authentication everything must have gone well. -/
theorem strict_after {α : Type} {token : GoString} {s : Scope} {K : Identity → Prog α} (hK : ∀ i, Strict (K i)) {tr : List Event}
    {a : α} (h : Yields ((d.verifyAccess token s).bind K) tr (.ok a)) :
    ∃ trI trR i, tr = trI ++ trR ∧ Yields (d.idProvider token) trI (.ok i) ∧ ∀ ev ∈ trR, ¬ ioFailed ev := by
  obtain ⟨t1, t2, i, rfl, h1, h2⟩ := yields_bind_ok.mp h
  exact ⟨t1, t2, i, rfl, (yields_verifyAccess_ok.mp h1).1, hK i _ _ h2⟩

/-- C19: if a call reports success, then every request it made to the IO Provider after authentication was answered
positively; the only exception is `Delete`, whose single request may have been answered "not found". -/
theorem C19_reported (c : Call) {tr : List Event} {r : Res} (h : Yields (callProg P d c) tr (.ok r)) :
    ∃ trI trR i, tr = trI ++ trR ∧ Yields (d.idProvider c.token) trI (.ok i) ∧
      ((∀ ev ∈ trR, ¬ ioFailed ev) ∨
        ∃ t oid, c = .delete t oid ∧ trR = [⟨.get oid.1 dtAccess, (.error .notFound : Except IoErr Bytes)⟩]) := by
  have wrap : (∃ trI trR i, tr = trI ++ trR ∧ Yields (d.idProvider c.token) trI (.ok i) ∧ ∀ ev ∈ trR, ¬ ioFailed ev) →
      ∃ trI trR i, tr = trI ++ trR ∧ Yields (d.idProvider c.token) trI (.ok i) ∧
        ((∀ ev ∈ trR, ¬ ioFailed ev) ∨
          ∃ t oid, c = .delete t oid ∧ trR = [⟨.get oid.1 dtAccess, (.error .notFound : Except IoErr Bytes)⟩]) :=
    fun ⟨trI, trR, i, h1, h2, h3⟩ => ⟨trI, trR, i, h1, h2, .inl h3⟩
  cases c with
  | delete token oid =>
    simp only [callProg, D1.delete, Prog.bind_eq, Prog.bind_assoc] at h
    obtain ⟨t1, t2, i, rfl, h1, h2⟩ := yields_bind_ok.mp h
    refine ⟨t1, t2, i, rfl, (yields_verifyAccess_ok.mp h1).1, ?_⟩
    rw [Prog.attempt_bind] at h2
    rcases yields_attempt.mp h2 with ⟨t1, t2, sa, rfl, h3, h4⟩ | ⟨t1, t2, e, rfl, h3, h4⟩ | ⟨h3, h4⟩ | ⟨h3, h4⟩
    · refine .inl fun ev hev => ?_
      rcases List.mem_append.mp hev with h | h
      · exact Strict.getSealedAccess _ _ _ h3 ev h
      · refine (Strict.bind ?_ fun _ => Strict.ret _) _ _ h4 ev h
        exact Strict.bind (Strict.ofExcept _) fun _ => Strict.bind (Strict.ioDelete _ _ _) fun _ => Strict.ioDelete _ _ _
    · by_cases he : e = .accessNotFound
      · subst he
        obtain ⟨rfl, _⟩ := yields_ret.mp h4
        refine .inr ⟨token, oid, rfl, ?_⟩
        rcases yields_getSealedAccess.mp h3 with ⟨_, _, _, _, h9⟩ | ⟨_, _, _, h9⟩ | ⟨e, he, h9⟩
        · cases h9
        · cases h9
        · cases e <;> simp only [onNotFound, Outcome.err.injEq, reduceCtorEq] at h9
          rw [he]; rfl
      · exfalso
        have h5 : Yields (.err e : Prog Res) t2 (.ok r) := by
          revert h4; cases e <;> first | exact id | exact absurd rfl he
        simp at h5
    · cases h4
    · cases h4
  | encrypt token o gs =>
    simp only [callProg, D1.encrypt, Prog.bind_eq, Prog.bind_assoc] at h
    refine wrap (strict_after (d := d) (fun i => ?_) h)
    refine Strict.bind (Strict.bind (Strict.rand _) fun _ => Strict.ret _) fun _ => Strict.bind (Strict.sealObject _ _ _) fun _ => ?_
    exact Strict.bind (Strict.ofPanic _) fun _ => Strict.bind (Strict.sealAccess _ _ _) fun _ =>
      Strict.bind (Strict.putSealedObject _ _) fun _ => Strict.bind (Strict.putSealedAccess _ _) fun _ => Strict.ret _
  | update token oid o =>
    simp only [callProg, update_eq, guardProg, Prog.bind_assoc] at h
    refine wrap (strict_after (d := d) (fun i => ?_) h)
    refine Strict.bind (Strict.getSealedAccess _) fun _ => Strict.bind (Strict.ofExcept _) fun _ => ?_
    exact Strict.bind (Strict.sealObject _ _ _) fun _ => Strict.bind (Strict.sealAccess _ _ _) fun _ =>
      Strict.bind (Strict.putSealedObject _ _) fun _ => Strict.bind (Strict.putSealedAccess _ _) fun _ => Strict.ret _
  | decrypt token oid =>
    simp only [callProg, decrypt_eq, guardProg, Prog.bind_assoc] at h
    refine wrap (strict_after (d := d) (fun i => ?_) h)
    refine Strict.bind (Strict.getSealedAccess _) fun _ => Strict.bind (Strict.ofExcept _) fun _ => ?_
    exact Strict.bind (Strict.getSealedObject _) fun _ => Strict.bind (Strict.ofExcept _) fun _ => Strict.ret _
  | getGroups token oid =>
    simp only [callProg, getAccessGroups_eq, guardProg, Prog.bind_assoc] at h
    refine wrap (strict_after (d := d) (fun i => ?_) h)
    exact Strict.bind (Strict.getSealedAccess _) fun _ => Strict.bind (Strict.ofExcept _) fun _ => Strict.ret _
  | addGroups token oid gs =>
    simp only [callProg, addGroupsToAccess_eq, guardProg, Prog.bind_assoc] at h
    refine wrap (strict_after (d := d) (fun i => ?_) h)
    refine Strict.bind (Strict.getSealedAccess _) fun _ => Strict.bind (Strict.ofExcept _) fun _ => ?_
    exact Strict.bind (Strict.ofPanic _) fun _ => Strict.bind (Strict.sealAccess _ _ _) fun _ =>
      Strict.bind (Strict.putSealedAccess _ _) fun _ => Strict.ret _
  | removeGroups token oid gs =>
    simp only [callProg, removeGroupsFromAccess_eq, guardProg, Prog.bind_assoc] at h
    refine wrap (strict_after (d := d) (fun i => ?_) h)
    refine Strict.bind (Strict.getSealedAccess _) fun _ => Strict.bind (Strict.ofExcept _) fun _ => ?_
    exact Strict.bind (Strict.sealAccess _ _ _) fun _ => Strict.bind (Strict.putSealedAccess _ _) fun _ => Strict.ret _
  | authorize token oid =>
    simp only [callProg, authorizeIdentity_eq, guardProg, Prog.bind_assoc] at h
    refine wrap (strict_after (d := d) (fun i => ?_) h)
    exact Strict.bind (Strict.getSealedAccess _) fun _ => Strict.bind (Strict.ofExcept _) fun _ => Strict.ret _

end

/-! ### Success means that the writes took effect, over any store and with any faults -/

section
variable {P : Prims} (L : P.Laws) {d : D1} {env : Env}

theorem run_verifyAccess_ok {token : GoString} {s : Scope} {w w1 : World} {i : Identity}
    (h : (d.verifyAccess token s).run env w = (.ok i, w1)) :
    (d.idProvider token).run env w = (.ok i, w1) ∧ scopeIn s i.scopes = true := by
  rw [D1.verifyAccess, Prog.run_attempt] at h
  cases hrun : (d.idProvider token).run env w with
  | mk out w' =>
    rw [hrun] at h
    cases out with
    | ok j =>
      simp only at h
      split at h
      · simp at h
      · rename_i hc
        simp only [Prog.run_ret, Prod.mk.injEq, Outcome.ok.injEq] at h
        obtain ⟨rfl, rfl⟩ := h
        exact ⟨rfl, by rw [scopeIn_eq]; simpa using hc⟩
    | _ => simp at h

theorem run_guardProg_ok {token : GoString} {s : Scope} {oid : Oid} {w w1 : World} {a : Access}
    (h : (guardProg P d token s oid).run env w = (.ok a, w1)) : ∃ i wi bytes, (d.idProvider token).run env w = (.ok i, wi) ∧
      wi.store oid.1 dtAccess = some bytes ∧ Accepts P d oid bytes a ∧ Lists i s a ∧ w1 = wi.next wi.store := by
  obtain ⟨i, wi, h1, h⟩ := (Prog.run_bind_ok_iff env).mp h
  obtain ⟨sa, w2, h2, h⟩ := (Prog.run_bind_ok_iff env).mp h
  simp only [getSealedAccess, Prog.bind_eq] at h2
  obtain ⟨b, w3, h3, h2⟩ := (Prog.run_bind_ok_iff env).mp h2
  obtain ⟨hb, rfl⟩ := run_ioGet_ok h3
  cases hu : (P.unmarshal b).bind (SealedAccess.ofJ P) with
  | none => rw [hu] at h2; simp at h2
  | some sa' =>
    rw [hu] at h2
    simp only [Prog.pure_eq, Prog.run_ret, Prod.mk.injEq, Outcome.ok.injEq] at h2
    obtain ⟨rfl, rfl⟩ := h2
    cases ha : d.authorizeAccess P i s { sa' with oid := oid } with
    | error e => rw [ha] at h; simp at h
    | ok a' =>
      rw [ha] at h
      simp only [Prog.ofExcept_ok, Prog.run_ret, Prod.mk.injEq, Outcome.ok.injEq] at h
      obtain ⟨rfl, rfl⟩ := h
      obtain ⟨h3, h4⟩ := authorizeAccess_ok.mp ha
      exact ⟨i, wi, b, (run_verifyAccess_ok h1).1, hb, ⟨sa', hu, h3⟩, h4, rfl⟩

include L

theorem Object.run_seal_ok {o : Object} {oid : Oid} {c : Cryptor} {w w1 : World} {r : Bytes × SealedObject}
    (h : (o.seal P oid c).run env w = (.ok r, w1)) :
    ∃ k n, r = (kwpBox P c.kwp k.1, sealedObj P oid o k n) ∧ w1 = ⟨w.store, w.t + 2⟩ := by
  simp only [Object.seal, Prog.bind_eq] at h
  obtain ⟨r', w3', h3, h3'⟩ := (Prog.run_bind_ok_iff env).mp h
  obtain ⟨k, n, rfl, rfl⟩ := Cryptor.run_encrypt_ok L h3
  simp only [Prog.pure_eq, Prog.run_ret, Prod.mk.injEq, Outcome.ok.injEq] at h3'
  obtain ⟨rfl, rfl⟩ := h3'
  exact ⟨k, n, rfl, rfl⟩

theorem Access.run_seal_ok {a : Access} {oid : Oid} {w w1 : World} {r : SealedAccess}
    (h : (a.seal P oid d.accessCryptor).run env w = (.ok r, w1)) :
    ∃ k n, r = sealedAcc P d oid a k n ∧ w1 = ⟨w.store, w.t + 2⟩ := by
  simp only [Access.seal, Prog.bind_eq] at h
  obtain ⟨r', w3', h3, h3'⟩ := (Prog.run_bind_ok_iff env).mp h
  obtain ⟨k, n, rfl, rfl⟩ := Cryptor.run_encrypt_ok L h3
  simp only [Prog.pure_eq, Prog.run_ret, Prod.mk.injEq, Outcome.ok.injEq] at h3'
  obtain ⟨rfl, rfl⟩ := h3'
  exact ⟨k, n, rfl, rfl⟩

omit L in
theorem lists_some {i : Identity} {s : Scope} {a : Access} (h : Lists i s a) : ∃ l, a.groups = some l := by
  obtain ⟨x, _, hx, _⟩ := h
  cases hg : a.groups with
  | none => rw [hg] at hx; cases hx
  | some l => exact ⟨l, rfl⟩

/-- C19: what a successful `Update` leaves in the store. -/
theorem C19_update_stored {token : GoString} {oid : Oid} {o : Object} {w w' : World}
    (h : (d.update P token oid o).run env w = (.ok (), w')) :
    ∃ a0 a, AccAt P d w'.store oid a ∧ ObjAt P d w'.store oid o a.wrappedDEK ∧
      (∃ bytes, (afterIdp d env w token).store oid.1 dtAccess = some bytes ∧ Accepts P d oid bytes a0) ∧
      ∀ x, a.groups.has x = true ↔ ∃ g, a0.groups.has g = true ∧ sanitize g = x := by
  rw [update_eq] at h
  obtain ⟨a0, w1, h1, h⟩ := (Prog.run_bind_ok_iff env).mp h
  obtain ⟨i, wi, bytes, hi, hb, hacc, hl, rfl⟩ := run_guardProg_ok h1
  obtain ⟨r, w2, h2, h⟩ := (Prog.run_bind_ok_iff env).mp h
  obtain ⟨k, n, rfl, rfl⟩ := Object.run_seal_ok L h2
  obtain ⟨sa, w3, h3, h⟩ := (Prog.run_bind_ok_iff env).mp h
  obtain ⟨ak, an, rfl, rfl⟩ := Access.run_seal_ok L h3
  obtain ⟨_, w4, h4, h⟩ := (Prog.run_bind_ok_iff env).mp h
  simp only [putSealedObject, if_true] at h4
  obtain ⟨_, rfl⟩ := run_ioUpdate_ok h4
  simp only [putSealedAccess, if_true] at h
  obtain ⟨_, rfl⟩ := run_ioUpdate_ok h
  obtain ⟨l, hl⟩ := lists_some hl
  refine ⟨a0, ⟨some (sanList l), some (kwpBox P d.objectCryptor.kwp k.1)⟩, ⟨l, some (kwpBox P d.objectCryptor.kwp k.1), ak, an, ?_, rfl⟩,
    ⟨k, n, ?_, rfl⟩, ⟨bytes, ?_, hacc⟩, ?_⟩
  · rw [hl]; exact Store.set_same _ _ _ _
  · simp only
    rw [Store.set_other _ _ _ _ _ _ (by simp [dtAccess, dtObject])]
    exact Store.set_same _ _ _ _
  · rw [afterIdp, hi]; exact hb
  · intro x
    rw [has_sanList, hl, List.any_eq_true]
    simp only [beq_iff_eq, GoSet.has, decide_eq_true_eq]

/-- C19: what a successful `AddGroupsToAccess` leaves in the store. -/
theorem C19_add_stored {token : GoString} {oid : Oid} {gs : List GoString} {w w' : World}
    (h : (d.addGroupsToAccess P token oid gs).run env w = (.ok (), w')) :
    ∃ a0 a, AccAt P d w'.store oid a ∧ a.wrappedDEK = a0.wrappedDEK ∧
      (∃ bytes, (afterIdp d env w token).store oid.1 dtAccess = some bytes ∧ Accepts P d oid bytes a0) ∧
      ∀ x, a.groups.has x = true ↔ ∃ g, (a0.groups.has g = true ∨ g ∈ gs) ∧ sanitize g = x := by
  rw [addGroupsToAccess_eq] at h
  obtain ⟨a0, w1, h1, h⟩ := (Prog.run_bind_ok_iff env).mp h
  obtain ⟨i, wi, bytes, hi, hb, hacc, hl, rfl⟩ := run_guardProg_ok h1
  obtain ⟨l, hl⟩ := lists_some hl
  simp only [Access.addGroups, hl, addToSet_some, Option.map_some, Prog.ofPanic_some, Prog.ret_bind] at h
  obtain ⟨sa, w3, h3, h⟩ := (Prog.run_bind_ok_iff env).mp h
  obtain ⟨ak, an, rfl, rfl⟩ := Access.run_seal_ok L h3
  simp only [putSealedAccess, if_true] at h
  obtain ⟨_, rfl⟩ := run_ioUpdate_ok h
  refine ⟨a0, ⟨some (sanList (gs.foldl setInsert l)), a0.wrappedDEK⟩, ⟨_, a0.wrappedDEK, ak, an, Store.set_same _ _ _ _, rfl⟩, rfl,
    ⟨bytes, by rw [afterIdp, hi]; exact hb, hacc⟩, ?_⟩
  intro x
  rw [has_sanList, hl, List.any_eq_true]
  simp only [beq_iff_eq, GoSet.has, decide_eq_true_eq, mem_foldl_setInsert]

/-- C19: what a successful `RemoveGroupsFromAccess` leaves in the store. -/
theorem C19_remove_stored {token : GoString} {oid : Oid} {gs : List GoString} {w w' : World}
    (h : (d.removeGroupsFromAccess P token oid gs).run env w = (.ok (), w')) :
    ∃ a0 a, AccAt P d w'.store oid a ∧ a.wrappedDEK = a0.wrappedDEK ∧
      (∃ bytes, (afterIdp d env w token).store oid.1 dtAccess = some bytes ∧ Accepts P d oid bytes a0) ∧
      ∀ x, a.groups.has x = true ↔ ∃ g, (a0.groups.has g = true ∧ g ∉ gs) ∧ sanitize g = x := by
  rw [removeGroupsFromAccess_eq] at h
  obtain ⟨a0, w1, h1, h⟩ := (Prog.run_bind_ok_iff env).mp h
  obtain ⟨i, wi, bytes, hi, hb, hacc, hl, rfl⟩ := run_guardProg_ok h1
  obtain ⟨l, hl⟩ := lists_some hl
  simp only [Access.removeGroups, hl, removeFromSet, Option.map_some] at h
  obtain ⟨sa, w3, h3, h⟩ := (Prog.run_bind_ok_iff env).mp h
  obtain ⟨ak, an, rfl, rfl⟩ := Access.run_seal_ok L h3
  simp only [putSealedAccess, if_true] at h
  obtain ⟨_, rfl⟩ := run_ioUpdate_ok h
  refine ⟨a0, ⟨some (sanList (gs.foldl setErase l)), a0.wrappedDEK⟩, ⟨_, a0.wrappedDEK, ak, an, Store.set_same _ _ _ _, rfl⟩, rfl,
    ⟨bytes, by rw [afterIdp, hi]; exact hb, hacc⟩, ?_⟩
  intro x
  rw [has_sanList, hl, List.any_eq_true]
  simp only [beq_iff_eq, GoSet.has, decide_eq_true_eq, mem_foldl_setErase]

omit L in
/-- C19: after a successful `Delete` neither record is there, or there was no access record to begin with. -/
theorem C19_delete_stored {token : GoString} {oid : Oid} {w w' : World}
    (h : (d.delete P token oid).run env w = (.ok (), w')) : w'.store oid.1 dtAccess = none ∧
      (w'.store oid.1 dtObject = none ∨ (afterIdp d env w token).store oid.1 dtAccess = none) := by
  simp only [D1.delete, Prog.bind_eq] at h
  obtain ⟨i, wi, h1, h⟩ := (Prog.run_bind_ok_iff env).mp h
  have hi := (run_verifyAccess_ok h1).1
  rw [Prog.run_attempt] at h
  cases hg : (getSealedAccess P oid).run env wi with
  | mk out w1 =>
    rw [hg] at h
    cases out with
    | ok sa =>
      simp only at h
      obtain ⟨_, w2, h2, h⟩ := (Prog.run_bind_ok_iff env).mp h
      obtain ⟨_, w3, h3, h⟩ := (Prog.run_bind_ok_iff env).mp h
      have e1 := run_ioDelete_ok h3
      have e2 := run_ioDelete_ok h
      subst e2; subst e1
      refine ⟨Store.set_same _ _ _ _, .inl ?_⟩
      simp only
      rw [Store.set_other _ _ _ _ _ _ (by simp [dtAccess, dtObject])]
      exact Store.set_same _ _ _ _
    | err e =>
      have he : e = .accessNotFound ∧ w' = w1 := by
        cases e <;> simp_all
      obtain ⟨rfl, rfl⟩ := he
      have hnone : wi.store oid.1 dtAccess = none ∧ w'.store = wi.store := by
        simp only [getSealedAccess, Prog.bind_eq, ioGet, Prog.op_bind, Prog.run_op, World.exec] at hg
        cases hs : wi.store oid.1 dtAccess with
        | none =>
          cases hf : env.fault wi.t <;> simp only [hf, Store.exec, hs, Eff.fail, Prog.err_bind, Prog.run_err, Prod.mk.injEq,
            Outcome.err.injEq, onNotFound, reduceCtorEq, false_and] at hg
          exact ⟨rfl, by rw [← hg.2]⟩
        | some b =>
          exfalso
          cases hf : env.fault wi.t <;> simp only [hf, Store.exec, hs, Eff.fail, Prog.err_bind, Prog.run_err, Prod.mk.injEq,
            Outcome.err.injEq, onNotFound, reduceCtorEq, false_and, Prog.ret_bind] at hg
          cases hu : (P.unmarshal b).bind (SealedAccess.ofJ P) <;> rw [hu] at hg <;> simp at hg
      refine ⟨by rw [hnone.2]; exact hnone.1, .inr (by rw [afterIdp, hi]; exact hnone.1)⟩
    | panic => simp at h
    | diverge => simp at h

end

end D1
