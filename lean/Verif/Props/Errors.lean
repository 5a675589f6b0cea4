import Verif.Props.Guard
import Verif.Props.Token
import Verif.Proofs.Frame
/-!
# C118: every error names its cause

Whatever the Identity Provider, the IO Provider and the random source answer: from the error that a call on D1 returns one can tell
what happened, in most cases to the very last request.
-/
namespace D1
open Spec Prog

/-! ## Specification -/

/-- The last thing that happened. -/
def LastIs (tr : List Event) (ev : Event) : Prop := ∃ tr0, tr = tr0 ++ [ev]

/-- The bytes are an object record that opens with the wrapped key. -/
def Holds (P : Prims) (d : D1) (oid : Oid) (dek : NBytes) (bytes : Bytes) (o : Object) : Prop :=
  ∃ so, (P.unmarshal bytes).bind (SealedObject.ofJ P) = some so ∧ o.associatedData = so.associatedData ∧
    d.objectCryptor.decrypt P J.toBytes (J.ofBytes (some (oid.1 ++ so.associatedData.bytes))) dek.bytes so.ciphertext.bytes = .ok o.plaintext

/-- A record that was read is not genuine: the access record, or (`Decrypt`) the object that comes with a genuine access record. -/
def Spoiled (P : Prims) (d : D1) (c : Call) (tr : List Event) : Prop :=
  ∃ oid trI i bytes, c.onOid = some oid ∧ Yields (d.idProvider c.token) trI (.ok i) ∧
    ((tr = trI ++ [⟨.get oid.1 dtAccess, (.ok bytes : Except IoErr Bytes)⟩] ∧ ∀ a, ¬ Accepts P d oid bytes a) ∨
      ∃ t a bytes', c = .decrypt t oid ∧ tr = trI ++ [⟨.get oid.1 dtAccess, (.ok bytes : Except IoErr Bytes)⟩,
        ⟨.get oid.1 dtObject, (.ok bytes' : Except IoErr Bytes)⟩] ∧ Accepts P d oid bytes a ∧ ∀ o, ¬ Holds P d oid a.wrappedDEK bytes' o)

/-- What an error of a call means, given what happened during the call. -/
def Cause (P : Prims) (d : D1) (c : Call) (tr : List Event) : Err → Prop
  | .notAuthenticated => ∃ e, Yields (d.idProvider c.token) tr (.err e)
  | .notAuthorized => (∃ i, Yields (d.idProvider c.token) tr (.ok i) ∧ scopeIn (docScope c) i.scopes = false) ∨
      ∃ oid trI i bytes a, c.onOid = some oid ∧ tr = trI ++ [⟨.get oid.1 dtAccess, (.ok bytes : Except IoErr Bytes)⟩] ∧
        Yields (d.idProvider c.token) trI (.ok i) ∧ Accepts P d oid bytes a ∧ ¬ Lists i (docScope c) a
  | .accessNotFound => ∃ oid, c.onOid = some oid ∧ (∀ t, c ≠ .delete t oid) ∧
      (LastIs tr ⟨.get oid.1 dtAccess, (.error .notFound : Except IoErr Bytes)⟩ ∨
        ∃ data, LastIs tr ⟨.update oid.1 dtAccess data, (.error .notFound : Except IoErr Unit)⟩)
  | .objectNotFound => (∃ t oid, c = .decrypt t oid ∧ LastIs tr ⟨.get oid.1 dtObject, (.error .notFound : Except IoErr Bytes)⟩) ∨
      ∃ t oid o data, c = .update t oid o ∧ LastIs tr ⟨.update oid.1 dtObject data, (.error .notFound : Except IoErr Unit)⟩
  | .objectAlreadyExists => ∃ t o gs, c = .encrypt t o gs ∧
      ∃ (oid : Oid) (data : Bytes), LastIs tr ⟨.put oid.1 dtObject data, (.error .alreadyExists : Except IoErr Unit)⟩
  | .accessAlreadyExists => ∃ t o gs, c = .encrypt t o gs ∧
      ∃ (oid : Oid) (data : Bytes), LastIs tr ⟨.put oid.1 dtAccess data, (.error .alreadyExists : Except IoErr Unit)⟩
  | .rand => ∃ n, LastIs tr ⟨.rand n, (none : Option (BytesN n))⟩
  | .io e => ∃ (oid : Oid) (dt : DataType), (dt = dtObject ∨ dt = dtAccess) ∧
      ((∃ data, e ≠ .alreadyExists ∧ LastIs tr ⟨.put oid.1 dt data, (.error e : Except IoErr Unit)⟩) ∨
        (e ≠ .notFound ∧ LastIs tr ⟨.get oid.1 dt, (.error e : Except IoErr Bytes)⟩) ∨
        (∃ data, e ≠ .notFound ∧ LastIs tr ⟨.update oid.1 dt data, (.error e : Except IoErr Unit)⟩) ∨
        LastIs tr ⟨.delete oid.1 dt, (.error e : Except IoErr Unit)⟩)
  | .json => Spoiled P d c tr
  | .kwp => Spoiled P d c tr
  | .aead => Spoiled P d c tr
  | _ => False

/-- What a call reports when this was the last thing that happened. -/
def Reports : Event → Err → Prop
  | ⟨.get _ dt, r⟩, e => ∃ x : IoErr, r = .error x ∧
      ((dt = dtAccess ∧ e = if x = .notFound then .accessNotFound else .io x) ∨ (dt = dtObject ∧ e = if x = .notFound then .objectNotFound else .io x))
  | ⟨.update _ dt _, r⟩, e => ∃ x : IoErr, r = .error x ∧
      ((dt = dtAccess ∧ e = if x = .notFound then .accessNotFound else .io x) ∨ (dt = dtObject ∧ e = if x = .notFound then .objectNotFound else .io x))
  | ⟨.put _ dt _, r⟩, e => ∃ x : IoErr, r = .error x ∧
      ((dt = dtAccess ∧ e = if x = .alreadyExists then .accessAlreadyExists else .io x) ∨
        (dt = dtObject ∧ e = if x = .alreadyExists then .objectAlreadyExists else .io x))
  | ⟨.delete _ dt, r⟩, e => ∃ x : IoErr, r = .error x ∧ (dt = dtAccess ∨ dt = dtObject) ∧ e = .io x
  | ⟨.rand _, r⟩, e => r = none ∧ e = .rand
  | _, _ => False

/-- The Identity Provider does not use the records of D1 and draws no random bytes. -/
def Aloof (d : D1) : Prop :=
  ∀ t, AllEff (fun e => e.dataType ≠ some dtObject ∧ e.dataType ≠ some dtAccess ∧ ∀ n, e ≠ .rand n) (d.idProvider t)

/-! ## Proofs -/

theorem LastIs.after {tr : List Event} {ev : Event} (h : LastIs tr ev) (tr0 : List Event) : LastIs (tr0 ++ tr) ev := by
  obtain ⟨t, rfl⟩ := h
  exact ⟨tr0 ++ t, by simp⟩

theorem lastIs_one (ev : Event) : LastIs [ev] ev := ⟨[], rfl⟩

theorem yields_bind_err {α β : Type} {p : Prog α} {k : α → Prog β} {tr : List Event} {e : Err} :
    Yields (p.bind k) tr (.err e) ↔ Yields p tr (.err e) ∨ ∃ tr1 tr2 a, tr = tr1 ++ tr2 ∧ Yields p tr1 (.ok a) ∧ Yields (k a) tr2 (.err e) := by
  rw [yields_bind]
  constructor
  · rintro (h | ⟨e', h, he⟩ | ⟨_, h⟩ | ⟨_, h⟩)
    · exact .inr h
    · cases he; exact .inl h
    · cases h
    · cases h
  · rintro (h | h)
    · exact .inr (.inl ⟨e, h, rfl⟩)
    · exact .inl h

theorem kwpUnwrap_err {P : Prims} {k b : Bytes} {e : Err} (h : kwpUnwrap P k b = .error e) : e = .kwp := by
  unfold kwpUnwrap at h
  by_cases h1 : b.length < wrappingSize minWrapSize
  · rw [if_pos h1] at h; cases h; rfl
  rw [if_neg h1] at h
  by_cases h2 : b.length > wrappingSize maxWrapSize
  · rw [if_pos h2] at h; cases h; rfl
  rw [if_neg h2] at h
  by_cases h3 : b.length % 8 ≠ 0
  · rw [if_pos h3] at h; cases h; rfl
  rw [if_neg h3] at h
  cases hi : invertW P k b with
  | error e' =>
    rw [hi] at h
    cases h
    rw [invertW] at hi
    split at hi <;> cases hi
    rfl
  | ok u =>
    rw [hi] at h
    simp only at h
    by_cases h4 : be32Val u ≠ ivPrefix
    · rw [if_pos h4] at h; cases h; rfl
    rw [if_neg h4] at h
    by_cases h5 : wrappingSize (be32Val (u.drop 4)) ≠ u.length
    · rw [if_pos h5] at h; cases h; rfl
    rw [if_neg h5] at h
    split at h <;> cases h
    rfl

theorem decrypt_err {P : Prims} {α : Type} {c : Cryptor} {dec : J → Option α} {a : J} {w ct : Bytes} {e : Err}
    (h : c.decrypt P dec a w ct = .error e) : e = .kwp ∨ e = .aead ∨ e = .json := by
  rw [Cryptor.decrypt] at h
  split at h
  · rename_i hk
    cases h
    exact .inl (kwpUnwrap_err hk)
  · simp only at h
    split at h
    · rename_i hg
      cases h
      rw [gcmDecrypt] at hg
      repeat' split at hg
      all_goals first
        | (cases hg; exact .inr (.inl rfl))
        | (simp only at hg; split at hg <;> cases hg; exact .inr (.inl rfl))
    · split at h
      · cases h; exact .inr (.inr rfl)
      · cases h

section
variable {P : Prims} {d : D1}

theorem yields_ioPut_err {f : IoErr → Err} {id : Bytes} {dt : DataType} {data : Bytes} {tr : List Event} {e : Err}
    (h : Yields (ioPut f id dt data) tr (.err e)) : ∃ x, e = f x ∧ tr = [⟨.put id dt data, (.error x : Except IoErr Unit)⟩] := by
  rw [ioPut, yields_op] at h
  obtain ⟨r, tr', rfl, h⟩ := h
  cases r with
  | ok b => cases h
  | error x => obtain ⟨rfl, h⟩ := yields_err.mp h; cases h; exact ⟨x, rfl, rfl⟩

theorem yields_ioUpdate_err {f : IoErr → Err} {id : Bytes} {dt : DataType} {data : Bytes} {tr : List Event} {e : Err}
    (h : Yields (ioUpdate f id dt data) tr (.err e)) : ∃ x, e = f x ∧ tr = [⟨.update id dt data, (.error x : Except IoErr Unit)⟩] := by
  rw [ioUpdate, yields_op] at h
  obtain ⟨r, tr', rfl, h⟩ := h
  cases r with
  | ok b => cases h
  | error x => obtain ⟨rfl, h⟩ := yields_err.mp h; cases h; exact ⟨x, rfl, rfl⟩

theorem yields_ioDelete_err {f : IoErr → Err} {id : Bytes} {dt : DataType} {tr : List Event} {e : Err}
    (h : Yields (ioDelete f id dt) tr (.err e)) : ∃ x, e = f x ∧ tr = [⟨.delete id dt, (.error x : Except IoErr Unit)⟩] := by
  rw [ioDelete, yields_op] at h
  obtain ⟨r, tr', rfl, h⟩ := h
  cases r with
  | ok b => cases h
  | error x => obtain ⟨rfl, h⟩ := yields_err.mp h; cases h; exact ⟨x, rfl, rfl⟩

theorem yields_rand_err {n : Nat} {tr : List Event} {e : Err} (h : Yields (randBytes n) tr (.err e)) :
    e = .rand ∧ LastIs tr ⟨.rand n, (none : Option (BytesN n))⟩ := by
  rcases yields_rand.mp h with ⟨b, _, hh⟩ | ⟨rfl, hh⟩
  · cases hh
  · injection hh with hh; exact ⟨hh, lastIs_one _⟩

theorem cause_rand {c : Call} {tr : List Event} {e : Err} (h : e = .rand ∧ ∃ n, LastIs tr ⟨.rand n, (none : Option (BytesN n))⟩) (tr0 : List Event) :
    Cause P d c (tr0 ++ tr) e := by
  obtain ⟨rfl, n, h⟩ := h
  exact ⟨n, h.after _⟩

theorem cause_verify {c : Call} {tr : List Event} {e : Err} (h : Yields (d.verifyAccess c.token (docScope c)) tr (.err e)) :
    Cause P d c tr e := by
  rw [D1.verifyAccess, yields_attempt] at h
  rcases h with ⟨t1, t2, i, rfl, h2, h3⟩ | ⟨t1, t2, e', rfl, h2, h3⟩ | ⟨_, h3⟩ | ⟨_, h3⟩
  · simp only at h3
    split at h3
    · rename_i hs
      obtain ⟨rfl, h3⟩ := yields_err.mp h3
      cases h3
      refine .inl ⟨i, by simpa using h2, ?_⟩
      rw [scopeIn_eq]; simpa using hs
    · cases h3
  · obtain ⟨rfl, h3⟩ := yields_err.mp h3
    cases h3
    exact ⟨e', by simpa using h2⟩
  · cases h3
  · cases h3

/-- The guard. -/
theorem cause_guard {c : Call} {oid : Oid} (hc : c.onOid = some oid) {tr : List Event} {e : Err}
    (h : Yields (guardProg P d c.token (docScope c) oid) tr (.err e)) (hd : e = .accessNotFound → ∀ t, c ≠ .delete t oid) : Cause P d c tr e := by
  rcases yields_bind_err.mp h with h | ⟨trI, tr2, i, rfl, hi, h⟩
  · exact cause_verify h
  · obtain ⟨hi, hs⟩ := yields_verifyAccess_ok.mp hi
    rcases yields_bind_err.mp h with h | ⟨tr3, tr4, sa, rfl, h1, h⟩
    · rcases yields_getSealedAccess.mp h with ⟨b, sa', _, _, hh⟩ | ⟨b, rfl, hu, hh⟩ | ⟨x, rfl, hh⟩
      · cases hh
      · cases hh
        refine ⟨oid, trI, i, b, hc, hi, .inl ⟨rfl, ?_⟩⟩
        rintro a ⟨sa, hsa, _⟩
        rw [hu] at hsa
        cases hsa
      · injection hh with hh
        subst hh
        by_cases hx : x = .notFound
        · subst hx
          exact ⟨oid, hc, hd rfl, .inl (LastIs.after (lastIs_one _) _)⟩
        · have : onNotFound .accessNotFound x = .io x := by cases x <;> first | rfl | exact absurd rfl hx
          rw [this]
          exact ⟨oid, dtAccess, .inr rfl, .inr (.inl ⟨hx, LastIs.after (lastIs_one _) _⟩)⟩
    · rcases yields_getSealedAccess.mp h1 with ⟨b, sa', rfl, hu, h1⟩ | ⟨b, _, _, h1⟩ | ⟨x, _, h1⟩ <;> cases h1
      cases ha : d.authorizeAccess P i (docScope c) { sa' with oid := oid } with
      | ok a => rw [ha] at h; cases h
      | error e' =>
        rw [ha] at h
        obtain ⟨rfl, h⟩ := yields_err.mp h
        cases h
        rw [D1.authorizeAccess] at ha
        cases hu2 : SealedAccess.unseal P { sa' with oid := oid } d.accessCryptor with
        | error e2 =>
          rw [hu2] at ha
          cases ha
          have hsp : Spoiled P d c (trI ++ [⟨.get oid.1 dtAccess, (.ok b : Except IoErr Bytes)⟩]) := by
            refine ⟨oid, trI, i, b, hc, hi, .inl ⟨rfl, ?_⟩⟩
            rintro a ⟨sa, hsa, h⟩
            rw [hu] at hsa
            cases hsa
            have h : SealedAccess.unseal P { sa' with oid := oid } d.accessCryptor = .ok a := h
            rw [hu2] at h
            cases h
          rw [List.append_nil]
          rcases decrypt_err hu2 with rfl | rfl | rfl <;> exact hsp
        | ok a =>
          have hn : ¬ Lists i (docScope c) a := by
            intro hl
            have := (authorizeAccess_ok (P := P) (d := d) (sa := { sa' with oid := oid })).mpr ⟨hu2, hl⟩
            rw [D1.authorizeAccess, ha] at this
            cases this
          rw [hu2] at ha
          simp only at ha
          split at ha
          · cases ha
          · cases ha
            exact .inr ⟨oid, trI, i, b, a, hc, by simp, hi, ⟨sa', hu, hu2⟩, hn⟩

/-- Writing records. -/
theorem cause_putObject {c : Call} {so : SealedObject} {update : Bool} {tr tr0 : List Event} {e : Err}
    (h : Yields (putSealedObject so update) tr (.err e))
    (hu : if update then ∃ t o, c = .update t so.oid o else ∃ t o gs, c = .encrypt t o gs) : Cause P d c (tr0 ++ tr) e := by
  cases update with
  | true =>
    obtain ⟨t, o, rfl⟩ := hu
    obtain ⟨x, rfl, rfl⟩ := yields_ioUpdate_err h
    by_cases hx : x = .notFound
    · subst hx
      exact .inr ⟨t, so.oid, o, _, rfl, (lastIs_one _).after _⟩
    · have : onNotFound .objectNotFound x = .io x := by cases x <;> first | rfl | exact absurd rfl hx
      rw [this]
      exact ⟨so.oid, dtObject, .inl rfl, .inr (.inr (.inl ⟨_, hx, (lastIs_one _).after _⟩))⟩
  | false =>
    obtain ⟨t, o, gs, rfl⟩ := hu
    obtain ⟨x, rfl, rfl⟩ := yields_ioPut_err h
    by_cases hx : x = .alreadyExists
    · subst hx
      exact ⟨t, o, gs, rfl, so.oid, _, (lastIs_one _).after _⟩
    · have : onAlreadyExists .objectAlreadyExists x = .io x := by cases x <;> first | rfl | exact absurd rfl hx
      rw [this]
      exact ⟨so.oid, dtObject, .inl rfl, .inl ⟨_, hx, (lastIs_one _).after _⟩⟩

theorem cause_putAccess {c : Call} {sa : SealedAccess} {update : Bool} {tr tr0 : List Event} {e : Err}
    (h : Yields (putSealedAccess sa update) tr (.err e))
    (hu : if update then c.onOid = some sa.oid ∧ ∀ t, c ≠ .delete t sa.oid else ∃ t o gs, c = .encrypt t o gs) : Cause P d c (tr0 ++ tr) e := by
  cases update with
  | true =>
    obtain ⟨h1, h2⟩ := hu
    obtain ⟨x, rfl, rfl⟩ := yields_ioUpdate_err h
    by_cases hx : x = .notFound
    · subst hx
      exact ⟨sa.oid, h1, h2, .inr ⟨_, (lastIs_one _).after _⟩⟩
    · have : onNotFound .accessNotFound x = .io x := by cases x <;> first | rfl | exact absurd rfl hx
      rw [this]
      exact ⟨sa.oid, dtAccess, .inr rfl, .inr (.inr (.inl ⟨_, hx, (lastIs_one _).after _⟩))⟩
  | false =>
    obtain ⟨t, o, gs, rfl⟩ := hu
    obtain ⟨x, rfl, rfl⟩ := yields_ioPut_err h
    by_cases hx : x = .alreadyExists
    · subst hx
      exact ⟨t, o, gs, rfl, sa.oid, _, (lastIs_one _).after _⟩
    · have : onAlreadyExists .accessAlreadyExists x = .io x := by cases x <;> first | rfl | exact absurd rfl hx
      rw [this]
      exact ⟨sa.oid, dtAccess, .inr rfl, .inl ⟨_, hx, (lastIs_one _).after _⟩⟩

/-- Sealing fails only when the random source does. -/
theorem seal_err (L : P.Laws) {c : Cryptor} {p a : J} {tr : List Event} {e : Err} (h : Yields (c.encrypt P p a) tr (.err e)) :
    e = .rand ∧ ∃ n, LastIs tr ⟨.rand n, (none : Option (BytesN n))⟩ := by
  rw [Cryptor.encrypt_eq L] at h
  rcases yields_bind_err.mp h with h | ⟨t1, t2, k, rfl, _, h⟩
  · exact ⟨(yields_rand_err h).1, 32, (yields_rand_err h).2⟩
  · rcases yields_bind_err.mp h with h | ⟨t3, t4, n, rfl, _, h⟩
    · exact ⟨(yields_rand_err h).1, 12, (yields_rand_err h).2.after _⟩
    · cases h

theorem objectSeal_err (L : P.Laws) {o : Object} {oid : Oid} {c : Cryptor} {tr : List Event} {e : Err}
    (h : Yields (o.seal P oid c) tr (.err e)) : e = .rand ∧ ∃ n, LastIs tr ⟨.rand n, (none : Option (BytesN n))⟩ := by
  rw [Object.seal, Prog.bind_eq] at h
  rcases yields_bind_err.mp h with h | ⟨_, _, _, _, _, h⟩
  · exact seal_err L h
  · cases h

theorem accessSeal_err (L : P.Laws) {a : Access} {oid : Oid} {c : Cryptor} {tr : List Event} {e : Err}
    (h : Yields (a.seal P oid c) tr (.err e)) : e = .rand ∧ ∃ n, LastIs tr ⟨.rand n, (none : Option (BytesN n))⟩ := by
  rw [Access.seal, Prog.bind_eq] at h
  rcases yields_bind_err.mp h with h | ⟨_, _, _, _, _, h⟩
  · exact seal_err L h
  · cases h

/-- A sealed record keeps the ID it was sealed for. -/
theorem objectSeal_oid {o : Object} {oid : Oid} {c : Cryptor} {tr : List Event} {r : Bytes × SealedObject}
    (h : Yields (o.seal P oid c) tr (.ok r)) : r.2.oid = oid := by
  rw [Object.seal, Prog.bind_eq] at h
  obtain ⟨_, _, _, _, _, h⟩ := yields_bind_ok.mp h
  obtain ⟨_, h⟩ := yields_ret.mp h
  cases h
  rfl

theorem accessSeal_oid {a : Access} {oid : Oid} {c : Cryptor} {tr : List Event} {r : SealedAccess}
    (h : Yields (a.seal P oid c) tr (.ok r)) : r.oid = oid := by
  rw [Access.seal, Prog.bind_eq] at h
  obtain ⟨_, _, _, _, _, h⟩ := yields_bind_ok.mp h
  obtain ⟨_, h⟩ := yields_ret.mp h
  cases h
  rfl

/-- The caller's view of a call has the errors of the call. -/
theorem yields_view_err {α β : Type} {p : Prog α} {f : α → β} {tr : List Event} {e : Err}
    (h : Yields (p.bind fun a => .ret (f a)) tr (.err e)) : Yields p tr (.err e) := by
  rcases yields_bind_err.mp h with h | ⟨_, _, _, _, _, h⟩
  · exact h
  · cases h

theorem yields_ofPanic_not_err {α : Type} {p : Option α} {tr : List Event} {e : Err} : ¬ Yields (Prog.ofPanic p) tr (.err e) := by
  intro h
  cases p <;> cases h

/-- Sealing and replacing the access list. -/
theorem cause_reseal (L : P.Laws) {c : Call} {oid : Oid} (hc : c.onOid = some oid) (hd : ∀ t, c ≠ .delete t oid) {a : Access}
    {tr tr0 : List Event} {e : Err}
    (h : Yields ((a.seal P oid d.accessCryptor).bind fun sa => putSealedAccess sa true) tr (.err e)) : Cause P d c (tr0 ++ tr) e := by
  rcases yields_bind_err.mp h with h | ⟨t1, t2, sa, rfl, h1, h⟩
  · exact cause_rand (accessSeal_err L h) _
  · rw [← List.append_assoc]
    have ho := accessSeal_oid h1
    exact cause_putAccess (update := true) h ⟨by rw [ho]; exact hc, by rw [ho]; exact hd⟩

theorem verify_err {t : GoString} {s : Scope} {tr : List Event} {e : Err} (h : Yields (d.verifyAccess t s) tr (.err e)) :
    e = .notAuthenticated ∨ e = .notAuthorized := by
  rw [D1.verifyAccess, yields_attempt] at h
  rcases h with ⟨t1, t2, i, rfl, h2, h3⟩ | ⟨t1, t2, e', rfl, h2, h3⟩ | ⟨_, h3⟩ | ⟨_, h3⟩
  · simp only at h3
    split at h3
    · cases h3; exact .inr rfl
    · cases h3
  · cases h3; exact .inl rfl
  · cases h3
  · cases h3

theorem authorizeAccess_err {i : Identity} {s : Scope} {sa : SealedAccess} {e : Err} (h : d.authorizeAccess P i s sa = .error e) :
    e ≠ .accessNotFound := by
  rw [D1.authorizeAccess] at h
  cases hu : SealedAccess.unseal P sa d.accessCryptor with
  | error e2 =>
    rw [hu] at h
    cases h
    rcases decrypt_err hu with rfl | rfl | rfl <;> simp
  | ok a =>
    rw [hu] at h
    simp only at h
    split at h <;> cases h
    simp

/-- A missing access record is no error for `Delete`. -/
theorem delete_not_accessNotFound {t : GoString} {oid : Oid} {tr : List Event} : ¬ Yields (d.delete P t oid) tr (.err .accessNotFound) := by
  intro h
  simp only [D1.delete, Prog.bind_eq] at h
  rcases yields_bind_err.mp h with h | ⟨_, _, i, _, _, h⟩
  · rcases verify_err h with h | h <;> cases h
  · rcases yields_attempt.mp h with ⟨t1, t2, sa, rfl, h3, h4⟩ | ⟨t1, t2, e, rfl, h3, h4⟩ | ⟨h3, hh⟩ | ⟨h3, hh⟩
    · rcases yields_bind_err.mp h4 with h4 | ⟨_, _, a, _, _, h4⟩
      · cases ha : d.authorizeAccess P i scopeDelete sa with
        | ok a => rw [ha] at h4; cases h4
        | error e => rw [ha] at h4; cases h4; exact authorizeAccess_err ha rfl
      · rcases yields_bind_err.mp h4 with h4 | ⟨_, _, _, _, _, h4⟩
        · obtain ⟨x, hx, _⟩ := yields_ioDelete_err h4; cases hx
        · obtain ⟨x, hx, _⟩ := yields_ioDelete_err h4; cases hx
    · by_cases he : e = .accessNotFound
      · subst he; cases h4
      · have h5 : Yields (.err e : Prog Unit) t2 (.err .accessNotFound) := by
          revert h4; cases e <;> first | exact id | exact absurd rfl he
        cases h5
        exact he rfl
    · cases hh
    · cases hh

theorem cause_delete {c : Call} {oid : Oid} {dt : DataType} (hdt : dt = dtObject ∨ dt = dtAccess) {tr tr0 : List Event} {e : Err}
    (h : Yields (ioDelete .io oid.1 dt) tr (.err e)) : Cause P d c (tr0 ++ tr) e := by
  obtain ⟨x, rfl, rfl⟩ := yields_ioDelete_err h
  exact ⟨oid, dt, hdt, .inr (.inr (.inr ((lastIs_one _).after _)))⟩

theorem cause_object {t : GoString} {oid : Oid} {a : Access} {tr1 tr : List Event} {e : Err}
    (hg : Yields (guardProg P d t scopeDecrypt oid) tr1 (.ok a))
    (h : Yields ((getSealedObject P oid).bind fun so => Prog.ofExcept (so.unseal P a.wrappedDEK d.objectCryptor)) tr (.err e)) :
    Cause P d (.decrypt t oid) (tr1 ++ tr) e := by
  obtain ⟨trI, i, bytes, rfl, hi, _, hacc, _⟩ := yields_guardProg_ok.mp hg
  rw [getSealedObject, Prog.bind_eq, Prog.bind_assoc] at h
  rcases yields_bind_err.mp h with h1 | ⟨t3, t4, b, rfl, h1, h2⟩
  · rcases yields_ioGet.mp h1 with ⟨_, _, hh⟩ | ⟨x, rfl, hh⟩
    · cases hh
    · injection hh with hh
      subst hh
      by_cases hx : x = .notFound
      · subst hx
        exact .inl ⟨t, oid, rfl, (lastIs_one _).after _⟩
      · have : onNotFound .objectNotFound x = .io x := by cases x <;> first | rfl | exact absurd rfl hx
        rw [this]
        exact ⟨oid, dtObject, .inl rfl, .inr (.inl ⟨hx, (lastIs_one _).after _⟩)⟩
  · rcases yields_ioGet.mp h1 with ⟨b', rfl, hh⟩ | ⟨_, _, hh⟩ <;> cases hh
    have hsp (hno : ∀ o, ¬ Holds P d oid a.wrappedDEK b o) : Spoiled P d (.decrypt t oid)
        ((trI ++ [⟨.get oid.1 dtAccess, (.ok bytes : Except IoErr Bytes)⟩]) ++ [⟨.get oid.1 dtObject, (.ok b : Except IoErr Bytes)⟩]) :=
      ⟨oid, trI, i, bytes, rfl, hi, .inr ⟨t, a, b, rfl, by simp, hacc, hno⟩⟩
    cases hu : (P.unmarshal b).bind (SealedObject.ofJ P) with
    | none =>
      rw [hu] at h2
      obtain ⟨rfl, hh⟩ := yields_err.mp h2
      cases hh
      rw [List.append_nil]
      refine hsp ?_
      rintro o ⟨so, hso, _⟩
      rw [hu] at hso
      cases hso
    | some so =>
      rw [hu] at h2
      cases hd : SealedObject.unseal P { so with oid := oid } a.wrappedDEK d.objectCryptor with
      | ok o =>
        have h2 : Yields (Prog.ofExcept (SealedObject.unseal P { so with oid := oid } a.wrappedDEK d.objectCryptor)) t4 (.err e) := h2
        rw [hd] at h2
        cases h2
      | error e' =>
        have h2 : Yields (Prog.ofExcept (SealedObject.unseal P { so with oid := oid } a.wrappedDEK d.objectCryptor)) t4 (.err e) := h2
        rw [hd] at h2
        obtain ⟨rfl, hh⟩ := yields_err.mp h2
        cases hh
        rw [SealedObject.unseal] at hd
        cases hdc : d.objectCryptor.decrypt P J.toBytes (objectAad oid so.associatedData) a.wrappedDEK.bytes so.ciphertext.bytes with
        | ok p =>
          simp only at hd
          rw [hdc] at hd
          cases hd
        | error e2 =>
          simp only at hd
          rw [hdc] at hd
          cases hd
          have := hsp (by
            rintro o ⟨so', hso, _, hdec⟩
            rw [hu] at hso
            cases hso
            have hdec : d.objectCryptor.decrypt P J.toBytes (objectAad oid so.associatedData) a.wrappedDEK.bytes so.ciphertext.bytes = .ok o.plaintext := hdec
            rw [hdc] at hdec
            cases hdec)
          rw [List.append_nil]
          rcases decrypt_err hdc with rfl | rfl | rfl <;> exact this

/-- C118: whatever the providers and the random source answer, an error of a call on D1 says what happened. -/
theorem C118_causes (L : P.Laws) (c : Call) {tr : List Event} {e : Err} (h : Yields (callProg P d c) tr (.err e)) : Cause P d c tr e := by
  cases c with
  | encrypt t o gs =>
    have h := yields_view_err h
    simp only [D1.encrypt, Prog.bind_eq] at h
    rcases yields_bind_err.mp h with h | ⟨t1, t2, i, rfl, _, h⟩
    · exact cause_verify (c := .encrypt t o gs) h
    rcases yields_bind_err.mp h with h | ⟨t3, t4, oid, rfl, _, h⟩
    · rw [newV4] at h
      have := yields_rand_err (yields_view_err h)
      exact cause_rand ⟨this.1, 16, this.2⟩ _
    rcases yields_bind_err.mp h with h | ⟨t5, t6, r, rfl, hr, h⟩
    · rw [← List.append_assoc]; exact cause_rand (objectSeal_err L h) _
    rcases yields_bind_err.mp h with h | ⟨t7, t8, a, rfl, _, h⟩
    · exact absurd h yields_ofPanic_not_err
    rcases yields_bind_err.mp h with h | ⟨t9, t10, sa, rfl, hsa, h⟩
    · simp only [← List.append_assoc]; exact cause_rand (accessSeal_err L h) _
    rcases yields_bind_err.mp h with h | ⟨t11, t12, _, rfl, _, h⟩
    · simp only [← List.append_assoc]; exact cause_putObject h ⟨t, o, gs, rfl⟩
    · simp only [← List.append_assoc]; exact cause_putAccess (yields_view_err h) ⟨t, o, gs, rfl⟩
  | update t oid o =>
    have h := yields_view_err h
    rw [update_eq] at h
    rcases yields_bind_err.mp h with h | ⟨t1, t2, a, rfl, _, h⟩
    · exact cause_guard (c := .update t oid o) rfl h (by simp)
    rcases yields_bind_err.mp h with h | ⟨t3, t4, r, rfl, hr, h⟩
    · exact cause_rand (objectSeal_err L h) _
    rcases yields_bind_err.mp h with h | ⟨t5, t6, sa, rfl, hsa, h⟩
    · rw [← List.append_assoc]; exact cause_rand (accessSeal_err L h) _
    have h1 := objectSeal_oid hr
    have h2 := accessSeal_oid hsa
    rcases yields_bind_err.mp h with h | ⟨t7, t8, _, rfl, _, h⟩
    · simp only [← List.append_assoc]; exact cause_putObject h ⟨t, o, by rw [h1]⟩
    · simp only [← List.append_assoc]; exact cause_putAccess h ⟨by rw [h2]; rfl, by simp⟩
  | decrypt t oid =>
    have h := yields_view_err h
    rw [decrypt_eq] at h
    rcases yields_bind_err.mp h with h | ⟨t1, t2, a, rfl, hg, h⟩
    · exact cause_guard (c := .decrypt t oid) rfl h (by simp)
    exact cause_object hg h
  | delete t oid =>
    have h := yields_view_err h
    have hne : e ≠ .accessNotFound := by rintro rfl; exact delete_not_accessNotFound h
    rcases delete_yields h with h | ⟨h, _⟩
    · rcases yields_bind_err.mp h with h | ⟨t1, t2, a, rfl, _, h⟩
      · exact cause_guard (c := .delete t oid) rfl h (fun he => absurd he hne)
      rcases yields_bind_err.mp h with h | ⟨t3, t4, _, rfl, _, h⟩
      · exact cause_delete (.inl rfl) h
      · rw [← List.append_assoc]; exact cause_delete (.inr rfl) h
    · cases h
  | getGroups t oid =>
    have h := yields_view_err h
    rw [getAccessGroups_eq] at h
    exact cause_guard (c := .getGroups t oid) rfl (yields_view_err h) (by simp)
  | addGroups t oid gs =>
    have h := yields_view_err h
    rw [addGroupsToAccess_eq] at h
    rcases yields_bind_err.mp h with h | ⟨t1, t2, a, rfl, _, h⟩
    · exact cause_guard (c := .addGroups t oid gs) rfl h (by simp)
    rcases yields_bind_err.mp h with h | ⟨t3, t4, a', rfl, _, h⟩
    · exact absurd h yields_ofPanic_not_err
    · rw [← List.append_assoc]; exact cause_reseal L rfl (by simp) h
  | removeGroups t oid gs =>
    have h := yields_view_err h
    rw [removeGroupsFromAccess_eq] at h
    rcases yields_bind_err.mp h with h | ⟨t1, t2, a, rfl, _, h⟩
    · exact cause_guard (c := .removeGroups t oid gs) rfl h (by simp)
    · exact cause_reseal L rfl (by simp) h
  | authorize t oid =>
    have h := yields_view_err h
    rw [authorizeIdentity_eq] at h
    exact cause_guard (c := .authorize t oid) rfl (yields_view_err h) (by simp)

theorem LastIs.unique {tr : List Event} {ev ev' : Event} (h : LastIs tr ev) (h' : LastIs tr ev') : ev = ev' := by
  obtain ⟨a, rfl⟩ := h
  obtain ⟨b, hb⟩ := h'
  have := (List.append_inj' hb rfl).2
  simpa using this

theorem LastIs.mem {tr : List Event} {ev : Event} (h : LastIs tr ev) : ev ∈ tr := by
  obtain ⟨a, rfl⟩ := h
  simp

theorem Reports.kind {ev : Event} {e : Err} (h : Reports ev e) :
    ¬ (ev.1.dataType ≠ some dtObject ∧ ev.1.dataType ≠ some dtAccess ∧ ∀ n, ev.1 ≠ .rand n) := by
  obtain ⟨f, r⟩ := ev
  rintro ⟨h1, h2, h3⟩
  cases f with
  | get id dt => obtain ⟨x, _, ⟨rfl, _⟩ | ⟨rfl, _⟩⟩ := h; exacts [h2 rfl, h1 rfl]
  | put id dt b => obtain ⟨x, _, ⟨rfl, _⟩ | ⟨rfl, _⟩⟩ := h; exacts [h2 rfl, h1 rfl]
  | update id dt b => obtain ⟨x, _, ⟨rfl, _⟩ | ⟨rfl, _⟩⟩ := h; exacts [h2 rfl, h1 rfl]
  | delete id dt => obtain ⟨x, _, rfl | rfl, _⟩ := h; exacts [h2 rfl, h1 rfl]
  | rand n => exact h3 n rfl
  | now => exact h

theorem dtObject_ne_dtAccess : dtObject ≠ dtAccess := by decide

/-- C118, the other way round: when a call fails and the last thing that happened is a failed request or a failed draw, the error is the one that
belongs to it. -/
theorem C118_exact (L : P.Laws) (hd : Aloof d) (c : Call) {tr : List Event} {e e' : Err} {ev : Event}
    (h : Yields (callProg P d c) tr (.err e)) (hl : LastIs tr ev) (hr : Reports ev e') : e = e' := by
  have hc := C118_causes L c h
  have hidp {o : Outcome Identity} (hy : Yields (d.idProvider c.token) tr o) : False :=
    hr.kind ((hd c.token).yields hy ev hl.mem)
  have hgood {oid : Oid} {dt : DataType} {b : Bytes} (h' : LastIs tr ⟨.get oid.1 dt, (.ok b : Except IoErr Bytes)⟩) : False := by
    obtain rfl := hl.unique h'
    obtain ⟨x, hx, _⟩ := hr
    cases hx
  have hsp (h' : Spoiled P d c tr) : False := by
    obtain ⟨oid, trI, i, b, _, _, ⟨rfl, _⟩ | ⟨t, a, b', _, rfl, _⟩⟩ := h'
    · exact hgood ⟨trI, rfl⟩
    · exact hgood (oid := oid) (dt := dtObject) (b := b') ⟨trI ++ [⟨.get oid.1 dtAccess, (.ok b : Except IoErr Bytes)⟩], by simp⟩
  cases e with
  | notAuthenticated => obtain ⟨x, hx⟩ := hc; exact (hidp hx).elim
  | notAuthorized =>
    rcases hc with ⟨i, hi, _⟩ | ⟨oid, trI, i, b, a, _, rfl, _⟩
    · exact (hidp hi).elim
    · exact (hgood ⟨trI, rfl⟩).elim
  | accessNotFound =>
    obtain ⟨oid, _, _, h' | ⟨data, h'⟩⟩ := hc <;> obtain rfl := hl.unique h' <;> obtain ⟨x, hx, ⟨_, rfl⟩ | ⟨hdt, _⟩⟩ := hr <;> cases hx
    · simp
    · exact absurd hdt.symm dtObject_ne_dtAccess
    · simp
    · exact absurd hdt.symm dtObject_ne_dtAccess
  | objectNotFound =>
    rcases hc with ⟨_, oid, _, h'⟩ | ⟨_, oid, _, data, _, h'⟩ <;> obtain rfl := hl.unique h' <;> obtain ⟨x, hx, ⟨hdt, _⟩ | ⟨_, rfl⟩⟩ := hr <;> cases hx
    · exact absurd hdt dtObject_ne_dtAccess
    · simp
    · exact absurd hdt dtObject_ne_dtAccess
    · simp
  | objectAlreadyExists =>
    obtain ⟨_, _, _, _, oid, data, h'⟩ := hc
    obtain rfl := hl.unique h'
    obtain ⟨x, hx, ⟨hdt, _⟩ | ⟨_, rfl⟩⟩ := hr <;> cases hx
    · exact absurd hdt dtObject_ne_dtAccess
    · simp
  | accessAlreadyExists =>
    obtain ⟨_, _, _, _, oid, data, h'⟩ := hc
    obtain rfl := hl.unique h'
    obtain ⟨x, hx, ⟨_, rfl⟩ | ⟨hdt, _⟩⟩ := hr <;> cases hx
    · simp
    · exact absurd hdt.symm dtObject_ne_dtAccess
  | rand =>
    obtain ⟨n, h'⟩ := hc
    obtain rfl := hl.unique h'
    exact hr.2.symm
  | io y =>
    obtain ⟨oid, dt, _, ⟨data, hy, h'⟩ | ⟨hy, h'⟩ | ⟨data, hy, h'⟩ | h'⟩ := hc <;> obtain rfl := hl.unique h'
    · obtain ⟨x, hx, ⟨_, rfl⟩ | ⟨_, rfl⟩⟩ := hr <;> cases hx <;> simp [hy]
    · obtain ⟨x, hx, ⟨_, rfl⟩ | ⟨_, rfl⟩⟩ := hr <;> cases hx <;> simp [hy]
    · obtain ⟨x, hx, ⟨_, rfl⟩ | ⟨_, rfl⟩⟩ := hr <;> cases hx <;> simp [hy]
    · obtain ⟨x, hx, _, rfl⟩ := hr; cases hx; rfl
  | json => exact (hsp hc).elim
  | kwp => exact (hsp hc).elim
  | aead => exact (hsp hc).elim
  | _ => exact hc.elim

/-- C118, tokens: `CreateToken` fails only when the random source does, and `GetTokenContents` says whether the token has expired at the
only time that it looks at, or is not genuine. -/
theorem C118_tokens (L : P.Laws) {tr : List Event} {e : Err} :
    (∀ contents, Yields (d.createToken P contents) tr (.err e) → e = .rand ∧ ∃ n, LastIs tr ⟨.rand n, (none : Option (BytesN n))⟩) ∧
    ∀ tok, Yields (d.getTokenContents P tok) tr (.err e) → ∃ now : GoTime, tr = [⟨.now, now⟩] ∧
      ((tok.expiryTime.ns < now.ns ∧ e = .tokenExpired) ∨
        (now.ns ≤ tok.expiryTime.ns ∧ (e = .kwp ∨ e = .aead ∨ e = .json) ∧ ∀ p, d.tokenCryptor.decrypt P J.toBytes (.ofTime P tok.expiryTime)
          tok.wrappedKey.bytes tok.ciphertext.bytes ≠ .ok p)) := by
  refine ⟨fun contents h => ?_, fun tok h => ?_⟩
  · rw [D1.createToken, Prog.bind_eq, newToken, Prog.bind_eq, Prog.bind_assoc] at h
    obtain ⟨now, tr', rfl, hh⟩ := yields_now.mp h
    simp only [Prog.pure_eq, Prog.ret_bind, Token.seal, Prog.bind_eq] at hh
    obtain ⟨he, n, hn⟩ := seal_err L (yields_view_err hh)
    exact ⟨he, n, hn.after [_]⟩
  · rw [D1.getTokenContents, SealedToken.unseal, Prog.bind_eq, Prog.bind_eq, Prog.bind_assoc] at h
    obtain ⟨now, tr', rfl, hh⟩ := yields_now.mp h
    clear h
    by_cases hb : tok.expiryTime.ns < now.ns
    · rw [if_pos (show tok.expiryTime.before now = true by simpa [GoTime.before] using hb)] at hh
      obtain ⟨rfl, h⟩ := yields_err.mp hh
      cases h
      exact ⟨now, rfl, .inl ⟨hb, rfl⟩⟩
    · rw [if_neg (show ¬ (tok.expiryTime.before now = true) by simpa [GoTime.before] using hb)] at hh
      cases hd : d.tokenCryptor.decrypt P J.toBytes (.ofTime P tok.expiryTime) tok.wrappedKey.bytes tok.ciphertext.bytes with
      | error e' =>
        rw [hd] at hh
        obtain ⟨rfl, h⟩ := yields_err.mp hh
        cases h
        exact ⟨now, rfl, .inr ⟨by omega, decrypt_err hd, by simp⟩⟩
      | ok p =>
        rw [hd] at hh
        cases hh

end

/-- Several of the errors occur in the concrete setting, and a missing access record is an error for `Decrypt` and none for `Delete`. -/
theorem C118_case :
    Yields (callProg toyPrims toyD1 (.decrypt [] nilOid)) [] (.err .notAuthenticated) ∧
    Yields (callProg toyPrims toyD1 (.decrypt [7] nilOid)) [⟨.get nilOid.1 dtAccess, (.error .notFound : Except IoErr Bytes)⟩] (.err .accessNotFound) ∧
    Yields (callProg toyPrims toyD1 (.delete [7] nilOid)) [⟨.get nilOid.1 dtAccess, (.error .notFound : Except IoErr Bytes)⟩] (.ok .unit) ∧
    Yields (callProg toyPrims toyD1 (.decrypt [7] nilOid)) [⟨.get nilOid.1 dtAccess, (.error .alreadyExists : Except IoErr Bytes)⟩]
      (.err (.io .alreadyExists)) ∧
    Yields (callProg toyPrims toyD1 (.encrypt [7] ⟨none, none⟩ [])) [⟨.rand 16, (none : Option (BytesN 16))⟩] (.err .rand) :=
  ⟨.err _, .op _ _ _ _ _ (.err _), .op _ _ _ _ _ (.ret _), .op _ _ _ _ _ (.err _), .op _ _ _ _ _ (.err _)⟩

/-- Both providers that the concrete settings use keep to themselves, and so does every Standalone provider. -/
example : Aloof toyD1 := by
  intro t
  simp only [toyD1]
  split <;> trivial
example {P : Prims} {s : Standalone} {d : D1} (h : d.idProvider = s.getIdentity P) : Aloof d := by
  intro t
  rw [h]
  refine allEff_getIdentity ?_ ?_ ?_ t <;> simp [Eff.dataType, dtUser, dtGroup, dtObject, dtAccess, dtEnd]

/-- A token that has expired, and one that was never sealed. -/
example (now : GoTime) (h : 0 < now.ns) : Yields (toyD1.getTokenContents toyPrims ⟨⟨0, 0⟩, none, none⟩) [⟨.now, now⟩] (.err .tokenExpired) ∧
    Yields (toyD1.getTokenContents toyPrims ⟨⟨0, 0⟩, none, none⟩) [⟨.now, (⟨0, 0⟩ : GoTime)⟩] (.err .kwp) := by
  refine ⟨.op _ _ _ _ _ ?_, .op _ _ _ _ _ (.err _)⟩
  have hb : GoTime.before ⟨0, 0⟩ now = true := by simpa [GoTime.before] using h
  show Yields (Prog.bind (if GoTime.before ⟨0, 0⟩ now = true then _ else _) _) [] _
  rw [if_pos hb]
  exact .err _

end D1
