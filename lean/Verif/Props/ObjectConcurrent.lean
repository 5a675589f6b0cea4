import Verif.Props.Crash
import Verif.Proofs.Safe
/-!
# Concurrent calls on one object: C12

Full statement: if several `Update`, `AddGroupsToAccess` and `RemoveGroupsFromAccess` calls on one object run concurrently and all report
success, then afterwards the object decrypts to the data of one of the updates and the access list reflects every acknowledged change.
False (`C12_update_unreadable`, `C12_lost_add`, `C12_lost_remove`).

What holds under any interleaving, any crashes and any IO failures, as long as nobody updates or deletes the object itself: it stays
readable, `Decrypt` returns it or is refused, and the access list stays between the IDs that nobody removes and the IDs that were there or
that somebody adds.
-/
namespace D1
open Spec Prog

section
variable {P : Prims} (L : P.Laws) {d : D1} {env : Env}

theorem allOut_true {α : Type} {p : Prog α} : AllOut (fun _ => True) p := by
  induction p with
  | op e k ih => exact fun r => ih r
  | _ => trivial

/-- The Identity Provider ends, says of a token only what `who` allows, and leaves object and access records alone. -/
def IdpSays (d : D1) (who : GoString → Identity → Prop) : Prop :=
  ∀ token, AllEff (fun e => ∀ id dt, dt = dtObject ∨ dt = dtAccess → e.target ≠ some (id, dt)) (d.idProvider token) ∧
    AllOut (Returns fun i => (i.groups.map Prod.fst).Nodup ∧ who token i) (d.idProvider token)

/-- A set of IDs between two bounds. -/
def Between (lo hi : GoString → Prop) (m : GoString → Bool) : Prop := (∀ x, lo x → m x = true) ∧ ∀ x, m x = true → hi x

/-- The object is stored, readable with the key on its access record, and its access list is between the bounds. -/
def Shared (P : Prims) (d : D1) (oid : Oid) (o : Object) (dek : NBytes) (lo hi : GoString → Prop) (st : Store) : Prop :=
  ObjAt P d st oid o dek ∧ ∃ a, AccAt P d st oid a ∧ a.wrappedDEK = dek ∧ Between lo hi a.groups.has

/-- Errors that say nothing about the object. -/
def Refusal (e : Err) : Prop := e = .notAuthenticated ∨ e = .notAuthorized ∨ e = .io .failure ∨ e = .rand

/-- How a call on the object may end: refused, or let through by an access list between the bounds; then `Decrypt` returns the object and
`GetAccessGroups` that list. -/
def Answer (who : GoString → Identity → Prop) (lo hi : GoString → Prop) (o : Object) (c : Call) : Outcome Res → Prop
  | .ok r => (∃ i m, who c.token i ∧ scopeIn (docScope c) i.scopes = true ∧ Between lo hi m ∧ allowed i (docScope c) m = true ∧
      ∀ m', r = .groups m' → m' = m) ∧
    ∀ t oid, c = .decrypt t oid → r = .object o
  | .err e => Refusal e
  | _ => False

theorem has_added (l gs : List GoString) (x : GoString) :
    GoSet.has (some (sanList (gs.foldl setInsert (sanList l)))) x = (GoSet.has (some (sanList l)) x || gs.any fun g => sanitize g == x) := by
  rw [has_sanList, GoSet.has, Bool.eq_iff_iff]
  simp only [List.any_eq_true, beq_iff_eq, Bool.or_eq_true, decide_eq_true_eq, mem_foldl_setInsert]
  constructor
  · rintro ⟨g, hg | hg, rfl⟩
    · rw [mem_sanList_san _ _ hg]; exact .inl hg
    · exact .inr ⟨g, hg, rfl⟩
  · rintro (h | ⟨g, hg, rfl⟩)
    · exact ⟨x, .inl h, mem_sanList_san _ _ h⟩
    · exact ⟨g, .inr hg, rfl⟩

theorem has_removed (l gs : List GoString) (x : GoString) :
    GoSet.has (some (sanList (gs.foldl setErase (sanList l)))) x = (GoSet.has (some (sanList l)) x && !gs.contains x) := by
  rw [has_sanList, GoSet.has, Bool.eq_iff_iff]
  simp only [List.any_eq_true, beq_iff_eq, Bool.and_eq_true, decide_eq_true_eq, mem_foldl_setErase, Bool.not_eq_true',
    List.contains_eq_mem, decide_eq_false_iff_not]
  constructor
  · rintro ⟨g, ⟨hg, hn⟩, rfl⟩
    rw [mem_sanList_san _ _ hg]; exact ⟨hg, hn⟩
  · rintro ⟨h, hn⟩
    exact ⟨x, ⟨h, hn⟩, mem_sanList_san _ _ h⟩

include L in
/-- What is read where an object is stored. -/
theorem unseal_objAt {s : Store} {oid : Oid} {o : Object} {dek : NBytes} (h : ObjAt P d s oid o dek) :
    ∃ b so, s oid.1 dtObject = some b ∧ (P.unmarshal b).bind (SealedObject.ofJ P) = some so ∧
      SealedObject.unseal P { so with oid := oid } dek d.objectCryptor = .ok o := by
  obtain ⟨k, n, h1, rfl⟩ := h
  refine ⟨_, sealedObj P oid o k n, h1, ?_, ?_⟩
  · simp only [L.unmarshal_render, Option.bind_some, SealedObject.ofJ_toJ L]
  · rw [SealedObject.unseal]
    simp only [sealedObj, NBytes.bytes, Option.getD_some]
    have := Cryptor.decrypt_box L d.objectCryptor J.toBytes (objectAad oid o.associatedData) (J.ofBytes o.plaintext) k n
    simp only [san_ofBytes, toBytes_ofBytes] at this
    rw [this]

variable {who : GoString → Identity → Prop} (hid : IdpSays d who) {oid : Oid} {o : Object} {dek : NBytes} {lo hi : GoString → Prop}

/-- Effects elsewhere. -/
theorem shared_frame {e : Eff} (h1 : e.target ≠ some (oid.1, dtObject)) (h2 : e.target ≠ some (oid.1, dtAccess)) {st st' : Store} {r : e.Resp}
    (h : Shared P d oid o dek lo hi st) (hst : AnyStep st e r st') : Shared P d oid o dek lo hi st' := by
  obtain ⟨ho, a, ha, h3⟩ := h
  exact ⟨ho.congr (hst.frame h1), a, ha.congr (hst.frame h2), h3⟩

include hid in
theorem safe_verifyAccess (t : GoString) (s : Scope) :
    Safe AnyStep (Shared P d oid o dek lo hi) (fun out => match out with
      | .ok i => (i.groups.map Prod.fst).Nodup ∧ who t i ∧ scopeIn s i.scopes = true
      | .err e => Refusal e
      | _ => False) (d.verifyAccess t s) := by
  refine safe_frame (Q := fun e => ∀ id dt, dt = dtObject ∨ dt = dtAccess → e.target ≠ some (id, dt))
    (fun e hq st r st' h hst => shared_frame (hq _ _ (.inl rfl)) (hq _ _ (.inr rfl)) h hst)
    (allEff_verifyAccess (hid t).1 s) ?_
  rw [D1.verifyAccess]
  refine (hid t).2.attempt ?_ (fun e _ => .inl rfl) (fun h => h) (fun h => h)
  rintro i ⟨h1, h2⟩
  simp only [← scopeIn_eq]
  cases hs : scopeIn s i.scopes
  · exact .inr (.inl rfl)
  · exact ⟨h1, h2, hs⟩

include L hid in
/-- The guard. -/
theorem safe_guard (t : GoString) (s : Scope) :
    Safe AnyStep (Shared P d oid o dek lo hi) (fun out => match out with
      | .ok a => (∃ l, a = ⟨some (sanList l), dek⟩) ∧ Between lo hi a.groups.has ∧
          ∃ i, who t i ∧ scopeIn s i.scopes = true ∧ allowed i s a.groups.has = true
      | .err e => Refusal e
      | _ => False) (guardProg P d t s oid) := by
  rw [guardProg]
  refine (safe_verifyAccess hid t s).bind ?_ (fun _ h => h) (fun h => h) (fun h => h)
  rintro i ⟨hn, hw, hs⟩
  rw [getSealedAccess, Prog.bind_eq, ioGet, op_bind, op_bind]
  intro st r st' h hst
  obtain ⟨rfl, hr⟩ := anyStep_get hst
  refine ⟨h, ?_⟩
  obtain ⟨ho, a, ha, hdek, hb⟩ := h
  obtain ⟨b, hb1, sa, hsa1, hsa2⟩ := accepts_of_accAt L ha
  rw [hb1] at hr
  rcases hr with rfl | rfl
  · simp only [ret_bind, hsa1, Prog.pure_eq]
    have : d.authorizeAccess P i s { sa with oid := oid } = if allowed i s a.groups.has = true then .ok a else .error .notAuthorized := by
      rw [D1.authorizeAccess, SealedAccess.unseal]
      simp only [hsa2]
      rw [allowed_eq i hn s a a.groups.has (fun _ => rfl)]
    rw [this]
    split
    · next hal =>
      obtain ⟨l, dk, k, n, h5, rfl⟩ := ha
      simp only at hdek
      subst hdek
      exact ⟨⟨l, rfl⟩, hb, i, hw, hs, hal⟩
    · exact .inr (.inl rfl)
  · exact .inr (.inr (.inl rfl))

theorem anyStep_rand {st st' : Store} {n : Nat} {r : Option (BytesN n)} (h : AnyStep st (.rand n) r st') : st' = st := by
  obtain ⟨rnd, clk, h | ⟨-, h | h⟩⟩ := h
  · cases h; rfl
  · exact h
  · exact h

include L in
theorem safe_encrypt {I : Store → Prop} (c : Cryptor) (p a : J) :
    Safe AnyStep I (fun out => match out with
      | .ok r => ∃ (k : BytesN 32) (n : BytesN 12), r = (kwpBox P c.kwp k.1, gcmBox P k.1 n.1 a.render p.render)
      | .err e => Refusal e
      | _ => False) (c.encrypt P p a) := by
  rw [Cryptor.encrypt_eq L, randBytes, op_bind]
  intro st r st' h hst
  obtain rfl := anyStep_rand hst
  refine ⟨h, ?_⟩
  cases r with
  | none => exact .inr (.inr (.inr rfl))
  | some k =>
    simp only [ret_bind]
    rw [randBytes, op_bind]
    intro st r st' h hst
    obtain rfl := anyStep_rand hst
    refine ⟨h, ?_⟩
    cases r with
    | none => exact .inr (.inr (.inr rfl))
    | some n => exact ⟨k, n, rfl⟩

include L in
/-- Sealing a list within the bounds and writing it. -/
theorem safe_store_access (l : List GoString) (hb : Between lo hi (GoSet.has (some (sanList l)))) :
    Safe AnyStep (Shared P d oid o dek lo hi) (fun out => match out with
      | .ok () => True
      | .err e => Refusal e
      | _ => False) (((⟨some l, dek⟩ : Access).seal P oid d.accessCryptor).bind fun sa => putSealedAccess sa true) := by
  rw [sealAccess_bind]
  refine (safe_encrypt L d.accessCryptor _ _).bind ?_ (fun _ h => h) (fun h => h) (fun h => h)
  rintro r ⟨k, n, rfl⟩
  simp only [putSealedAccess, if_true, ioUpdate]
  intro st r st' h hst
  obtain ⟨h1, h2⟩ := anyStep_update hst
  have hex : ∃ x, st oid.1 dtAccess = some x := by
    obtain ⟨-, a, ⟨l, dk, k, n, h5, -⟩, -⟩ := h
    exact ⟨_, h5⟩
  constructor
  · rcases h1 with rfl | rfl
    · exact h
    · exact ⟨h.1.congr (Store.set_other _ _ _ _ _ _ (by simp [dtAccess, dtObject])), _,
        ⟨l, dek, k, n, Store.set_same _ _ _ _, rfl⟩, rfl, hb⟩
  · rcases h2 hex with rfl | rfl
    · trivial
    · exact .inr (.inr (.inl rfl))

/-- What a call may do for the bounds to hold: neither update nor delete the object, add only IDs within the upper bound, remove only IDs
outside the lower bound. -/
def Mild (oid : Oid) (lo hi : GoString → Prop) : Call → Prop
  | .update _ oid' _ => oid' ≠ oid
  | .delete _ oid' => oid' ≠ oid
  | .addGroups _ oid' gs => oid' = oid → ∀ g ∈ gs, hi (sanitize g)
  | .removeGroups _ oid' gs => oid' = oid → ∀ g ∈ gs, ¬ lo g
  | _ => True

include L hid in
/-- A call on another object, or one that creates an object. -/
theorem safe_other (c : Call) (hc : c.onOid ≠ some oid) : Safe AnyStep (Shared P d oid o dek lo hi) (fun _ => True) (callProg P d c) := by
  have put : ∀ (id : Bytes) (dt : DataType) (b : Bytes) (st st' : Store) (r : Except IoErr Unit), Shared P d oid o dek lo hi st →
      AnyStep st (.put id dt b) r st' → Shared P d oid o dek lo hi st' := by
    rintro id dt b st st' r ⟨ho, a, ha, h3⟩ hst
    rcases anyStep_put hst with ⟨h1, rfl⟩ | rfl
    · refine ⟨ho.congr (Store.set_other _ _ _ _ _ _ ?_), a, ha.congr (Store.set_other _ _ _ _ _ _ ?_), h3⟩
      · rintro ⟨rfl, rfl⟩
        obtain ⟨k, n, h4, -⟩ := ho
        rw [h4] at h1
        cases h1
      · rintro ⟨rfl, rfl⟩
        obtain ⟨l, dk, k, n, h4, -⟩ := ha
        rw [h4] at h1
        cases h1
    · exact ⟨ho, a, ha, h3⟩
  have hi' := fun t => (hid t).1.mono (Q' := fun e => ∀ st r st', Shared P d oid o dek lo hi st → AnyStep st e r st' → Shared P d oid o dek lo hi st')
    fun e hq st r st' h hst => shared_frame (hq _ _ (.inl rfl)) (hq _ _ (.inr rfl)) h hst
  have hrand : ∀ n st r st', Shared P d oid o dek lo hi st → AnyStep st (.rand n) r st' → Shared P d oid o dek lo hi st' :=
    fun n st r st' h hst => shared_frame (by simp [Eff.target]) (by simp [Eff.target]) h hst
  refine safe_frame (Q := fun e => ∀ st r st', Shared P d oid o dek lo hi st → AnyStep st e r st' → Shared P d oid o dek lo hi st')
    (fun e hq => hq) ?_ allOut_true
  cases hon : c.onOid with
  | some oid' =>
    rw [hon] at hc
    refine allEff_call c (hi' _) hrand fun e dt h1 h2 h3 => ?_
    have h3 := h3 oid' hon
    have hne : oid'.1 ≠ oid.1 := fun h => hc (by rw [Subtype.ext h])
    refine fun st r st' h hst => shared_frame ?_ ?_ h hst
    all_goals
      cases e <;> simp only [Eff.target, Eff.entry, Option.some.injEq, ne_eq, reduceCtorEq, not_false_iff, Prod.mk.injEq] at h3 ⊢ <;>
        (rintro ⟨h4, -⟩; exact hne (h3.symm.trans h4))
  | none =>
    cases c <;> simp only [Call.onOid, reduceCtorEq] at hon
    refine AllEff.bind (AllEff.bind (allEff_verifyAccess (hi' _) _) fun _ => AllEff.bind (allEff_newV4 hrand) fun oid => ?_) fun _ => trivial
    simp only [Prog.bind_eq, sealObject_bind, sealAccess_bind]
    exact AllEff.bind (allEff_encrypt hrand _ _ _) fun r => AllEff.bind (allEff_ofPanic _) fun a =>
      AllEff.bind (allEff_encrypt hrand _ _ _) fun r' => AllEff.bind (allEff_ioPut fun st r st' => put _ _ _ st st' r) fun _ =>
        AllEff.bind (allEff_ioPut fun st r st' => put _ _ _ st st' r) fun _ => trivial

theorem answer_guard {c : Call} {t : GoString} (ht : c.token = t) {s : Scope} (hs : docScope c = s) {m : GoString → Bool} (hb : Between lo hi m)
    (hw : ∃ i, who t i ∧ scopeIn s i.scopes = true ∧ allowed i s m = true) (r : Res) (hr : ∀ m', r = .groups m' → m' = m)
    (hd : ∀ t oid, c = .decrypt t oid → r = .object o) : Answer who lo hi o c (.ok r) := by
  subst ht hs
  obtain ⟨i, h1, h2, h3⟩ := hw
  exact ⟨⟨i, m, h1, h2, hb, h3, hr⟩, hd⟩

include L hid in
/-- A call on the object. -/
theorem safe_same (c : Call) (hc : c.onOid = some oid) (hm : Mild oid lo hi c) :
    Safe AnyStep (Shared P d oid o dek lo hi) (Answer who lo hi o c) (callProg P d c) := by
  cases c with
  | encrypt t o' gs => cases hc
  | update t oid' o' => cases hc; exact absurd rfl hm
  | delete t oid' => cases hc; exact absurd rfl hm
  | decrypt t oid' =>
    cases hc
    rw [callProg, decrypt_eq, Prog.bind_assoc]
    refine (safe_guard L hid t scopeDecrypt).bind ?_ (fun _ h => h) (fun h => h) (fun h => h)
    rintro a ⟨⟨l, rfl⟩, hb, hi⟩
    rw [Prog.bind_assoc, getSealedObject, Prog.bind_eq, ioGet, op_bind, op_bind]
    intro st r st' h hst
    obtain ⟨rfl, hr⟩ := anyStep_get hst
    refine ⟨h, ?_⟩
    obtain ⟨ho, -⟩ := h
    obtain ⟨b, so, hb1, hso, hu⟩ := unseal_objAt L ho
    rw [hb1] at hr
    rcases hr with rfl | rfl
    · simp only [ret_bind, hso, Prog.pure_eq, hu]
      exact answer_guard (c := .decrypt t oid) rfl rfl hb hi _ (by rintro m' ⟨⟩) (by rintro t' oid' ⟨⟩; rfl)
    · exact .inr (.inr (.inl rfl))
  | getGroups t oid' =>
    cases hc
    rw [callProg, getAccessGroups_eq, Prog.bind_assoc]
    refine (safe_guard L hid t scopeGetAccessGroups).bind ?_ (fun _ h => h) (fun h => h) (fun h => h)
    rintro a ⟨-, hb, hi⟩
    exact answer_guard (c := .getGroups t oid) rfl rfl hb hi _ (by rintro m' ⟨⟩; rfl) (by rintro t' oid' ⟨⟩)
  | authorize t oid' =>
    cases hc
    rw [callProg, authorizeIdentity_eq, Prog.bind_assoc]
    refine (safe_guard L hid t scopeGetAccessGroups).bind ?_ (fun _ h => h) (fun h => h) (fun h => h)
    rintro a ⟨-, hb, hi⟩
    exact answer_guard (c := .authorize t oid) rfl rfl hb hi _ (by rintro m' ⟨⟩) (by rintro t' oid' ⟨⟩)
  | addGroups t oid' gs =>
    cases hc
    rw [callProg, addGroupsToAccess_eq, Prog.bind_assoc]
    refine (safe_guard L hid t scopeModifyAccessGroups).bind ?_ (fun _ h => h) (fun h => h) (fun h => h)
    rintro a ⟨⟨l, rfl⟩, hb, hi⟩
    simp only [Access.addGroups, addToSet_some, Option.map_some, Prog.ofPanic_some, Prog.ret_bind]
    refine (safe_store_access L _ ?_).bind ?_ (fun _ h => h) (fun h => h) (fun h => h)
    · refine ⟨fun x hx => ?_, fun x hx => ?_⟩
      · rw [has_added, hb.1 x hx]; rfl
      · rw [has_added, Bool.or_eq_true, List.any_eq_true] at hx
        rcases hx with hx | ⟨g, hg, hx⟩
        · exact hb.2 x hx
        · rw [← eq_of_beq hx]; exact hm rfl g hg
    · exact fun _ _ => answer_guard (c := .addGroups t oid gs) rfl rfl hb hi _ (by rintro m' ⟨⟩) (by rintro t' oid' ⟨⟩)
  | removeGroups t oid' gs =>
    cases hc
    rw [callProg, removeGroupsFromAccess_eq, Prog.bind_assoc]
    refine (safe_guard L hid t scopeModifyAccessGroups).bind ?_ (fun _ h => h) (fun h => h) (fun h => h)
    rintro a ⟨⟨l, rfl⟩, hb, hi⟩
    simp only [Access.removeGroups, removeFromSet, Option.map_some]
    refine (safe_store_access L _ ?_).bind ?_ (fun _ h => h) (fun h => h) (fun h => h)
    · refine ⟨fun x hx => ?_, fun x hx => ?_⟩
      · rw [has_removed, hb.1 x hx, Bool.true_and, Bool.not_eq_true', List.contains_eq_mem, decide_eq_false_iff_not]
        exact fun hg => hm rfl x hg hx
      · rw [has_removed, Bool.and_eq_true] at hx
        exact hb.2 x hx.1
    · exact fun _ _ => answer_guard (c := .removeGroups t oid gs) rfl rfl hb hi _ (by rintro m' ⟨⟩) (by rintro t' oid' ⟨⟩)

include L hid in
/-- C12, a part that holds.  Any calls run concurrently, with any crashes and IO failures, and none of them updates or deletes the object
`oid`.  Then the object stays stored and readable, its access list contains all IDs that nobody removes and only IDs that were there or that
somebody adds; and every call on it that ends was refused, or failed on IO or randomness, or was let through by such a list, and if it was a
`Decrypt` it returned the object.  Missing: `Update`s and `Delete`s of the object (`C12_update_unreadable`), and that every acknowledged
change of the list is in effect at the end (`C12_lost_add`, `C12_lost_remove`); see `C69_linearizable` for calls that do not overlap. -/
theorem C12_readable_partial {e : Entry} {w : World} (h : EntryAt P d w.store oid e) (calls : List Call)
    (hu : ∀ t o, .update t oid o ∉ calls) (hd : ∀ t, .delete t oid ∉ calls) (sch : List Nat) {lo hi : GoString → Prop}
    (hlo : ∀ x, lo x ↔ e.members x = true ∧ ∀ t gs, .removeGroups t oid gs ∈ calls → x ∉ gs)
    (hhi : ∀ x, hi x ↔ e.members x = true ∨ ∃ t gs g, .addGroups t oid gs ∈ calls ∧ g ∈ gs ∧ sanitize g = x) :
    (∃ m, EntryAt P d (sched env sch w (calls.map (callProg P d))).1.store oid ⟨e.object, m⟩ ∧ Between lo hi m) ∧
      ∀ j out, (j, out) ∈ commits env sch w (calls.map (callProg P d)) → ∀ c, calls[j]? = some c → c.onOid = some oid →
        Answer who lo hi e.object c out := by
  obtain ⟨a, ha, ho, hm⟩ := h
  have hs : Shared P d oid e.object a.wrappedDEK lo hi w.store := by
    refine ⟨ho, a, ha, rfl, fun x hx => ?_, fun x hx => ?_⟩
    · rw [hm]; exact ((hlo x).mp hx).1
    · rw [hm] at hx; exact (hhi x).mpr (.inl hx)
  have hmild : ∀ c ∈ calls, Mild oid lo hi c := by
    intro c hc
    cases c with
    | update t oid' o => rintro rfl; exact hu t o hc
    | delete t oid' => rintro rfl; exact hd t hc
    | addGroups t oid' gs => rintro rfl g hg; exact (hhi _).mpr (.inr ⟨t, gs, g, hc, hg, rfl⟩)
    | removeGroups t oid' gs => rintro rfl g hg hl; exact ((hlo g).mp hl).2 t gs hc hg
    | _ => trivial
  obtain ⟨g1, g2, -⟩ := Safe.runs (I := Shared P d oid e.object a.wrappedDEK lo hi)
    (R := fun j out => ∀ c, calls[j]? = some c → c.onOid = some oid → Answer who lo hi e.object c out)
    (sched_runs (fun w e => anyStep env w e) sch w (calls.map (callProg P d))) hs fun j p hp => by
      rw [List.getElem?_map, Option.map_eq_some_iff] at hp
      obtain ⟨c, hc, rfl⟩ := hp
      by_cases hon : c.onOid = some oid
      · refine (safe_same L hid c hon (hmild c (List.mem_of_getElem? hc))).mono fun out hout c' hc' _ => ?_
        rw [hc] at hc'
        cases hc'
        exact hout
      · refine (safe_other L hid c hon).mono fun out _ c' hc' hon' => ?_
        rw [hc] at hc'
        cases hc'
        exact absurd hon' hon
  obtain ⟨ho', a', ha', hdek, hb⟩ := g1
  exact ⟨⟨a'.groups.has, ⟨a', ha', hdek ▸ ho', fun _ => rfl⟩, hb⟩, g2⟩

end

/-! ## Concrete cases -/

/-- An object with access list `[[7], [8]]`. -/
def toyShared : World := ⟨fun id dt =>
  if id = nilOid.1 ∧ dt = dtObject then
    some (sealedObj toyPrims nilOid ⟨some [1], some [2]⟩ ⟨List.replicate 32 9, rfl⟩ ⟨List.replicate 12 9, rfl⟩).toJ.render
  else if id = nilOid.1 ∧ dt = dtAccess then some (sealedAcc toyPrims toyD1 nilOid
    ⟨some [[7], [8]], some (kwpBox toyPrims toyD1.objectCryptor.kwp (List.replicate 32 9))⟩ ⟨List.replicate 32 8, rfl⟩
    ⟨List.replicate 12 8, rfl⟩).toJ.render
  else none, 0⟩

theorem toyShared_entry : EntryAt toyPrims toyD1 toyShared.store nilOid
    ⟨⟨some [1], some [2]⟩, GoSet.has (some (sanList [[7], [8]]))⟩ := by
  refine ⟨⟨some (sanList [[7], [8]]), some (kwpBox toyPrims toyD1.objectCryptor.kwp (List.replicate 32 9))⟩,
    ⟨_, _, ⟨List.replicate 32 8, rfl⟩, ⟨List.replicate 12 8, rfl⟩, ?_, rfl⟩,
    ⟨⟨List.replicate 32 9, rfl⟩, ⟨List.replicate 12 9, rfl⟩, ?_, rfl⟩, fun _ => rfl⟩
  · unfold toyShared
    simp only
    rw [if_neg (by simp [dtAccess, dtObject]), if_pos (by simp)]
  · unfold toyShared
    simp only
    rw [if_pos (by simp)]

def succeeded {α : Type} : Outcome α → Bool
  | .ok _ => true
  | _ => false

/-- Which calls end, in order, and whether they report success. -/
def reports (sch : List Nat) (calls : List Call) : List (Nat × Bool) :=
  (commits toyEnv sch toyShared (calls.map (callProg toyPrims toyD1))).map fun p => (p.1, succeeded p.2)

/-- The world after concurrent calls. -/
def leaves (sch : List Nat) (calls : List Call) : World := (sched toyEnv sch toyShared (calls.map (callProg toyPrims toyD1))).1

/-- C12, refutation: two concurrent `Update`s report success, and the object cannot be decrypted afterwards: the object record is that of
one call and the key on the access record that of the other. -/
theorem C12_update_unreadable : ∃ sch,
    reports sch [.update [7] nilOid ⟨some [3], none⟩, .update [7] nilOid ⟨some [4], none⟩] = [(1, true), (0, true)] ∧
    ((toyD1.decrypt toyPrims [7] nilOid).run toyEnv
      (leaves sch [.update [7] nilOid ⟨some [3], none⟩, .update [7] nilOid ⟨some [4], none⟩])).1 = .err .aead :=
  ⟨[0, 0, 0, 0, 0, 1, 1, 1, 1, 1, 0, 1, 1, 0], by decide +kernel, by decide +kernel⟩

/-- C12, refutation: an `AddGroupsToAccess` runs between the read and the write of an `Update`.  Both report success, and the object
cannot be decrypted afterwards; or, with the writes of the access record the other way round, the added group is not on the list. -/
theorem C12_update_add : (∃ sch,
      reports sch [.update [7] nilOid ⟨some [3], none⟩, .addGroups [7] nilOid [[9]]] = [(0, true), (1, true)] ∧
      ((toyD1.decrypt toyPrims [7] nilOid).run toyEnv
        (leaves sch [.update [7] nilOid ⟨some [3], none⟩, .addGroups [7] nilOid [[9]]])).1 = .err .aead) ∧
    ∃ sch, reports sch [.update [7] nilOid ⟨some [3], none⟩, .addGroups [7] nilOid [[9]]] = [(1, true), (0, true)] ∧
      ((toyD1.getAccessGroups toyPrims [7] nilOid).run toyEnv
        (leaves sch [.update [7] nilOid ⟨some [3], none⟩, .addGroups [7] nilOid [[9]]])).1 = .ok (some [[7], [8]]) :=
  ⟨⟨[1, 0, 0, 0, 0, 0, 0, 0, 1, 1, 1], by decide +kernel, by decide +kernel⟩,
    ⟨[0, 1, 1, 1, 1, 0, 0, 0, 0, 0, 0], by decide +kernel, by decide +kernel⟩⟩

/-- C12, refutation: two concurrent `AddGroupsToAccess` report success, and one of the groups is not on the list. -/
theorem C12_lost_add : ∃ sch,
    reports sch [.addGroups [7] nilOid [[9]], .addGroups [7] nilOid [[10]]] = [(0, true), (1, true)] ∧
    ((toyD1.getAccessGroups toyPrims [7] nilOid).run toyEnv
      (leaves sch [.addGroups [7] nilOid [[9]], .addGroups [7] nilOid [[10]]])).1 = .ok (some [[7], [8], [10]]) :=
  ⟨[0, 1, 0, 0, 0, 1, 1, 1], by decide +kernel, by decide +kernel⟩

/-- C12, refutation: a `RemoveGroupsFromAccess` and an `AddGroupsToAccess` run concurrently and report success, and the removed ID can still
decrypt. -/
theorem C12_lost_remove : ∃ sch,
    reports sch [.removeGroups [7] nilOid [[8]], .addGroups [7] nilOid [[9]]] = [(0, true), (1, true)] ∧
    ((toyD1.decrypt toyPrims [8] nilOid).run toyEnv
      (leaves sch [.removeGroups [7] nilOid [[8]], .addGroups [7] nilOid [[9]]])).1 = .ok ⟨some [1], some [2]⟩ :=
  ⟨[0, 1, 0, 0, 0, 1, 1, 1], by decide +kernel, by decide +kernel⟩

theorem toyD1_says : IdpSays toyD1 fun t i => i.id = t := by
  intro t
  simp only [toyD1]
  split <;> exact ⟨trivial, by simp [AllOut, Returns]⟩

/-- Non-vacuity of `C12_readable_partial`: two racing group changes and a `Decrypt`, on a stored object. -/
example : EntryAt toyPrims toyD1 toyShared.store nilOid ⟨⟨some [1], some [2]⟩, GoSet.has (some (sanList [[7], [8]]))⟩ ∧
    reports [0, 1, 0, 0, 0, 2, 1, 1, 1, 2] [.removeGroups [7] nilOid [[8]], .addGroups [7] nilOid [[9]], .decrypt [8] nilOid] =
      [(0, true), (2, false), (1, true)] :=
  ⟨toyShared_entry, by decide +kernel⟩

end D1
