import Verif.Props.ObjectConcurrent
import Verif.Proofs.Linear
/-!
# Concurrent calls that do not conflict: C69

Calls on objects run concurrently.  Two calls conflict if they are about the same object and both change it, or one replaces its contents
while the other decrypts it.  If conflicting calls are never in progress at the same time, the calls are linearizable: they have the results
and the effect of a sequence of calls of the vault, in an order that agrees with real time.
-/
namespace D1
open Spec Prog

/-- The call changes an existing object or its access list. -/
def Spec.Call.changes : Call → Bool
  | .update .. | .delete .. | .addGroups .. | .removeGroups .. => true
  | _ => false

/-- The call replaces or deletes the contents of an existing object. -/
def Spec.Call.replaces : Call → Bool
  | .update .. | .delete .. => true
  | _ => false

def Spec.Call.decrypts : Call → Bool
  | .decrypt .. => true
  | _ => false

def Spec.Call.encrypts : Call → Bool
  | .encrypt .. => true
  | _ => false

/-- The calls must not overlap. -/
def Conflict (a b : Call) : Prop := ∃ oid, a.onOid = some oid ∧ b.onOid = some oid ∧
  (a.changes = true ∧ b.changes = true ∨ a.decrypts = true ∧ b.replaces = true ∨ a.replaces = true ∧ b.decrypts = true)

/-- The Identity Provider ends, says of a token only what `who` allows (`none`: it rejects the token), and leaves object and access records
alone. -/
def IdpTells (d : D1) (who : GoString → Option Identity → Prop) : Prop :=
  ∀ token, AllEff (fun e => ∀ id dt, dt = dtObject ∨ dt = dtAccess → e.target ≠ some (id, dt)) (d.idProvider token) ∧
    AllOut (fun out => match out with
      | .ok i => (i.groups.map Prod.fst).Nodup ∧ who token (some i)
      | .err _ => who token none
      | _ => False) (d.idProvider token)

/-- One call of the vault, which never draws an ID that is in use; or a call that fails because the random source does. -/
def VaultStep (env : Env) (who : GoString → Option Identity → Prop) (c : Call) (v : Vault) (out : Outcome Res) (v' : Vault) : Prop :=
  (∃ i fresh, who c.token i ∧ out ≠ .err .objectAlreadyExists ∧ out = toOutcome (step sanitize v i fresh c).1 ∧
    v' = (step sanitize v i fresh c).2) ∨
  (out = .err .rand ∧ v' = v ∧ ∃ t n, env.rand t n = none)

/-- The object IDs that can be drawn between two moments are different, and not in use. -/
def FreshIds (env : Env) (s : Store) (t0 limit : Nat) : Prop := ∀ t b, t0 ≤ t → t < limit → env.rand t 16 = some b →
  (∀ dt, s (mkV4 b).1 dt = none) ∧ ∀ t' b', t < t' → t' < limit → env.rand t' 16 = some b' → mkV4 b ≠ mkV4 b'

/-- Ghost state: the vault, who is changing what, and who is reading what. -/
structure Locks where
  v : Vault
  own : Oid → Option Nat
  rd : Oid → Nat → Prop

def Locks.at (g : Locks) (oid : Oid) (e : Option Entry) (own : Option Nat) (rd : Nat → Prop) : Locks :=
  ⟨g.v.set oid e, fun o => if o = oid then own else g.own o, fun o => if o = oid then rd else g.rd o⟩

section
variable (P : Prims) (d : D1) (env : Env) (calls : List Call)

def RelAt (g : Locks) (s : Store) (oid : Oid) : Prop := match g.v oid with
  | none => s oid.1 dtObject = none ∧ s oid.1 dtAccess = none
  | some e => EntryAt P d s oid e

/-- The invariant for one object. -/
structure LockAt (g : Locks) (s : Store) (oid : Oid) : Prop where
  acc : match g.v oid with
    | none => s oid.1 dtAccess = none
    | some e => ∃ a, AccAt P d s oid a ∧ ∀ x, a.groups.has x = e.members x
  obj : (∀ i c, g.own oid = some i → calls[i]? = some c → c.replaces = false ∧ c.encrypts = false) → RelAt P d g s oid
  own : ∀ i, g.own oid = some i → ∃ c, calls[i]? = some c ∧
    (c.encrypts = true ∧ g.v oid = none ∨ c.changes = true ∧ c.onOid = some oid)
  rd : ∀ i, g.rd oid i → (∃ t, calls[i]? = some (.decrypt t oid)) ∧ g.v oid ≠ none

structure LockInv (limit : Nat) (g : Locks) (w : World) : Prop where
  at_ : ∀ oid, LockAt P d calls g w.store oid
  fresh : ∀ t b, w.t ≤ t → t < limit → env.rand t 16 = some b → (g.own (mkV4 b) = none ∧ g.v (mkV4 b) = none) ∧
    ∀ t' b', t < t' → t' < limit → env.rand t' 16 = some b' → mkV4 b ≠ mkV4 b'

structure LockRely (j : Nat) (g : Locks) (s : Store) (g' : Locks) (s' : Store) : Prop where
  own : ∀ oid, g'.own oid = some j ↔ g.own oid = some j
  rd : ∀ oid, g'.rd oid j ↔ g.rd oid j
  keep : ∀ oid, g.own oid = some j → g'.v oid = g.v oid ∧ s' oid.1 dtObject = s oid.1 dtObject ∧ s' oid.1 dtAccess = s oid.1 dtAccess
  read : ∀ oid, g.rd oid j → s' oid.1 dtObject = s oid.1 dtObject

def Locks.holds (g : Locks) (i : Nat) : Prop := ∃ oid, g.own oid = some i ∨ g.rd oid i

theorem LockRely.trans {j : Nat} {g g' g'' : Locks} {s s' s'' : Store} (h1 : LockRely j g s g' s') (h2 : LockRely j g' s' g'' s'') :
    LockRely j g s g'' s'' :=
  ⟨fun o => (h2.own o).trans (h1.own o), fun o => (h2.rd o).trans (h1.rd o),
    fun o ho => by
      obtain ⟨a1, a2, a3⟩ := h1.keep o ho
      obtain ⟨b1, b2, b3⟩ := h2.keep o ((h1.own o).mpr ho)
      exact ⟨b1.trans a1, b2.trans a2, b3.trans a3⟩,
    fun o ho => (h2.read o ((h1.rd o).mpr ho)).trans (h1.read o ho)⟩

def vaultRules (limit : Nat) (who : GoString → Option Identity → Prop) : LinRules Locks Vault Res where
  env := env
  limit := limit
  inv := LockInv P d env calls limit
  rely j g w g' w' := LockRely j g w.store g' w'.store
  refl j g w := ⟨fun _ => .rfl, fun _ => .rfl, fun _ _ => ⟨rfl, rfl, rfl⟩, fun _ _ => rfl⟩
  trans h1 h2 := h1.trans h2
  holds := Locks.holds
  holds_iff h := exists_congr fun o => or_congr (h.own o) (h.rd o)
  conflict i j := ∃ a b, calls[i]? = some a ∧ calls[j]? = some b ∧ Conflict a b
  abs := Locks.v
  lin j v o v' := ∃ c, calls[j]? = some c ∧ VaultStep env who c v o v'
end

section
variable {P : Prims} (L : P.Laws) {d : D1} {env : Env} {calls : List Call} {limit : Nat} {who : GoString → Option Identity → Prop}

local notation "VR" => vaultRules P d env calls limit who

theorem Locks.at_v (g : Locks) (oid : Oid) (e : Option Entry) (own : Option Nat) (rd : Nat → Prop) : (g.at oid e own rd).v oid = e := by
  simp [Locks.at, Vault.set]

theorem Locks.at_own (g : Locks) (oid : Oid) (e : Option Entry) (own : Option Nat) (rd : Nat → Prop) : (g.at oid e own rd).own oid = own := by
  simp [Locks.at]

theorem Locks.at_rd (g : Locks) (oid : Oid) (e : Option Entry) (own : Option Nat) (rd : Nat → Prop) : (g.at oid e own rd).rd oid = rd := by
  simp [Locks.at]

theorem Locks.at_ne (g : Locks) {oid o : Oid} (h : o ≠ oid) (e : Option Entry) (own : Option Nat) (rd : Nat → Prop) :
    (g.at oid e own rd).v o = g.v o ∧ (g.at oid e own rd).own o = g.own o ∧ (g.at oid e own rd).rd o = g.rd o := by
  simp [Locks.at, Vault.set, h]

theorem Vault.set_self (v : Vault) (oid : Oid) : Vault.set v oid (v oid) = v := by
  funext o
  simp only [Vault.set]
  split
  · next h => rw [h]
  · rfl

theorem RelAt.congr {g g' : Locks} {s s' : Store} {oid : Oid} (hv : g'.v oid = g.v oid) (h1 : s' oid.1 dtObject = s oid.1 dtObject)
    (h2 : s' oid.1 dtAccess = s oid.1 dtAccess) (h : RelAt P d g s oid) : RelAt P d g' s' oid := by
  rw [RelAt, hv]
  rw [RelAt] at h
  cases hv' : g.v oid with
  | none => rw [hv'] at h; simp only at h ⊢; rw [h1, h2]; exact h
  | some e => rw [hv'] at h; exact EntryAt.congr h1 h2 h

theorem LockAt.congr {g g' : Locks} {s s' : Store} {oid : Oid} (hv : g'.v oid = g.v oid) (ho : g'.own oid = g.own oid)
    (hr : g'.rd oid = g.rd oid) (h1 : s' oid.1 dtObject = s oid.1 dtObject)
    (h2 : s' oid.1 dtAccess = s oid.1 dtAccess) (h : LockAt P d calls g s oid) : LockAt P d calls g' s' oid := by
  refine ⟨?_, ?_, ?_, ?_⟩
  · have := h.acc
    rw [hv]
    cases hv' : g.v oid with
    | none => rw [hv'] at this; simp only at this ⊢; rw [h2]; exact this
    | some e =>
      rw [hv'] at this
      obtain ⟨a, ha, hm⟩ := this
      exact ⟨a, ha.congr h2, hm⟩
  · rw [ho]; exact fun h' => (h.obj h').congr hv h1 h2
  · rw [ho, hv]; exact h.own
  · rw [hr, hv]; exact h.rd

/-- One effect of call `j` that concerns one object only. -/
theorem touch {j : Nat} {oid : Oid} {g : Locks} {w w' : World} (hinv : LockInv P d env calls limit g w) {e : Option Entry} {own : Option Nat}
    {rd : Nat → Prop} (ht : w'.t = w.t + 1)
    (hs : ∀ o : Oid, o ≠ oid → w'.store o.1 dtObject = w.store o.1 dtObject ∧ w'.store o.1 dtAccess = w.store o.1 dtAccess)
    (hnew : LockAt P d calls (g.at oid e own rd) w'.store oid)
    (hfr : ∀ t b, w.t < t → t < limit → env.rand t 16 = some b → mkV4 b ≠ oid)
    (hown : ∀ i, i ≠ j → (own = some i ↔ g.own oid = some i) ∧ (g.own oid = some i → e = g.v oid ∧
      w'.store oid.1 dtObject = w.store oid.1 dtObject ∧ w'.store oid.1 dtAccess = w.store oid.1 dtAccess))
    (hrd : ∀ i, i ≠ j → (rd i ↔ g.rd oid i) ∧ (g.rd oid i → w'.store oid.1 dtObject = w.store oid.1 dtObject)) :
    LockInv P d env calls limit (g.at oid e own rd) w' ∧ ∀ i, i ≠ j → LockRely i g w.store (g.at oid e own rd) w'.store := by
  refine ⟨⟨fun o => ?_, fun t b h1 h2 h3 => ?_⟩, fun i hi => ⟨fun o => ?_, fun o => ?_, fun o ho => ?_, fun o ho => ?_⟩⟩
  · by_cases ho : o = oid
    · subst ho; exact hnew
    · obtain ⟨a1, a2, a3⟩ := g.at_ne ho e own rd
      exact (hinv.at_ o).congr a1 a2 a3 (hs o ho).1 (hs o ho).2
  · have hne := hfr t b (by omega) h2 h3
    obtain ⟨a1, a2, a3⟩ := g.at_ne hne e own rd
    rw [a1, a2]
    exact hinv.fresh t b (by omega) h2 h3
  · by_cases ho : o = oid
    · subst ho; rw [Locks.at_own]; exact (hown i hi).1
    · rw [(g.at_ne ho e own rd).2.1]
  · by_cases ho : o = oid
    · subst ho; rw [Locks.at_rd]; exact (hrd i hi).1
    · rw [(g.at_ne ho e own rd).2.2]
  · by_cases h : o = oid
    · subst h; rw [Locks.at_v]; exact (hown i hi).2 ho
    · exact ⟨(g.at_ne h e own rd).1, hs o h⟩
  · by_cases h : o = oid
    · subst h; exact (hrd i hi).2 ho
    · exact (hs o h).1

/-- Nobody else is changing the object. -/
theorem unowned {j : Nat} {oid : Oid} {g : Locks} {own : Option Nat} {A : Nat → Prop} (h1 : ∀ i, i ≠ j → g.own oid ≠ some i)
    (h2 : ∀ i, i ≠ j → own ≠ some i) : ∀ i, i ≠ j → (own = some i ↔ g.own oid = some i) ∧ (g.own oid = some i → A i) :=
  fun i hi => ⟨⟨fun h => absurd h (h2 i hi), fun h => absurd h (h1 i hi)⟩, fun h => absurd h (h1 i hi)⟩

theorem own_ne {j : Nat} : ∀ i, i ≠ j → some j ≠ some i := fun i hi => by simpa using Ne.symm hi

/-- One effect that concerns no object. -/
theorem untouched {g : Locks} {w w' : World} (hinv : LockInv P d env calls limit g w) (ht : w'.t = w.t + 1) (hs : SameObjects w.store w'.store) :
    LockInv P d env calls limit g w' ∧ ∀ i, LockRely i g w.store g w'.store :=
  ⟨⟨fun o => (hinv.at_ o).congr rfl rfl rfl (hs o.1).1 (hs o.1).2, fun t b h1 => hinv.fresh t b (by omega)⟩,
    fun _ => ⟨fun _ => .rfl, fun _ => .rfl, fun o _ => ⟨rfl, hs o.1⟩, fun o _ => (hs o.1).1⟩⟩

/-- An ID that is in use is not drawn again. -/
theorem LockInv.notFresh {g : Locks} {w : World} (hinv : LockInv P d env calls limit g w) {oid : Oid} (h : g.v oid ≠ none ∨ g.own oid ≠ none) :
    ∀ t b, w.t < t → t < limit → env.rand t 16 = some b → mkV4 b ≠ oid := by
  rintro t b h1 h2 h3 rfl
  obtain ⟨⟨a1, a2⟩, -⟩ := hinv.fresh t b (by omega) h2 h3
  rcases h with h | h
  · exact h a2
  · exact h a1

include L in
theorem AccAt.unique {s : Store} {oid : Oid} {a a' : Access} (h : AccAt P d s oid a) (h' : AccAt P d s oid a') : a = a' := by
  obtain ⟨b, h1, sa, h2, h3⟩ := accepts_of_accAt L h
  obtain ⟨b', h1', sa', h2', h3'⟩ := accepts_of_accAt L h'
  rw [h1] at h1'
  cases h1'
  rw [h2] at h2'
  cases h2'
  rw [h3] at h3'
  cases h3'
  rfl

/-! ## The parts of a call -/

/-- What `getSealedAccess` does with the answer of the IO Provider. -/
def readAccess (P : Prims) (oid : Oid) (r : (Eff.get oid.1 dtAccess).Resp) : Prog SealedAccess := match (r : Except IoErr Bytes) with
  | .ok b => match (P.unmarshal b).bind (SealedAccess.ofJ P) with
    | none => .err .json
    | some a => .ret { a with oid := oid }
  | .error e => .err (onNotFound .accessNotFound e)

theorem getSealedAccess_op (oid : Oid) : getSealedAccess P oid = .op (.get oid.1 dtAccess) (readAccess P oid) := by
  rw [getSealedAccess, Prog.bind_eq, ioGet, op_bind]
  congr 1
  funext r
  cases r <;> rfl

theorem readAccess_none (hf : NoFault env) {g : Locks} {w : World} {oid : Oid} (hl : LockAt P d calls g w.store oid) (hv : g.v oid = none) :
    readAccess P oid (w.exec env (.get oid.1 dtAccess)).1 = .err .accessNotFound := by
  have := hl.acc
  rw [hv] at this
  rw [exec_none hf]
  simp only [Store.exec, this]
  rfl

include L in
theorem readAccess_some (hf : NoFault env) {w : World} {oid : Oid} {a : Access} (ha : AccAt P d w.store oid a) :
    ∃ sa, readAccess P oid (w.exec env (.get oid.1 dtAccess)).1 = .ret sa ∧ sa.unseal P d.accessCryptor = .ok a := by
  obtain ⟨b, hb1, sa, hsa1, hsa2⟩ := accepts_of_accAt L ha
  refine ⟨{ sa with oid := oid }, ?_, hsa2⟩
  rw [exec_none hf]
  simp only [Store.exec, hb1, readAccess, hsa1]

theorem authorize_eq {i : Identity} (hn : (i.groups.map Prod.fst).Nodup) {s : Scope} {sa : SealedAccess} {a : Access} {m : GoString → Bool}
    (hu : sa.unseal P d.accessCryptor = .ok a) (hm : ∀ x, a.groups.has x = m x) :
    d.authorizeAccess P i s sa = if allowed i s m = true then .ok a else .error .notAuthorized := by
  rw [D1.authorizeAccess, hu]
  simp only
  rw [allowed_eq i hn s a m hm]

theorem exec_get_world (hf : NoFault env) (w : World) (id : Bytes) (dt : DataType) : (w.exec env (.get id dt)).2 = ⟨w.store, w.t + 1⟩ := by
  rw [exec_none hf]
  simp only [Store.exec]
  cases w.store id dt <;> rfl

theorem lin_err {v : Vault} {c : Call} {t : GoString} (ht : c.token = t) {i : Option Identity} (hw : who t i) {e : Err}
    (he : e ≠ .objectAlreadyExists) (hstep : step sanitize v i nilOid c = (.error e, v)) : VaultStep env who c v (.err e) v := by
  subst ht
  exact .inl ⟨i, nilOid, hw, by simpa using he, by rw [hstep]; rfl, by rw [hstep]⟩

theorem lin_ok {v v' : Vault} {c : Call} {t : GoString} (ht : c.token = t) {i : Identity} (hw : who t (some i)) {r : Res} (fresh : Oid)
    (hstep : step sanitize v (some i) fresh c = (.ok r, v')) : VaultStep env who c v (.ok r) v' := by
  subst ht
  exact .inl ⟨some i, fresh, hw, by simp, by rw [hstep]; rfl, by rw [hstep]⟩

theorem idle_of {j : Nat} {g g' : Locks} {s s' : Store} (h : ¬ g.holds j) (hr : LockRely j g s g' s') : ¬ g'.holds j :=
  fun ⟨o, ho⟩ => h ⟨o, ho.imp (hr.own o).mp (hr.rd o).mp⟩

variable (hid : IdpTells d who) {j : Nat} {c : Call} (hc : calls[j]? = some c)

include hid hc in
/-- The Identity Provider is asked. -/
theorem lin_verify (hf : NoFault env) {t : GoString} (ht : c.token = t) {s : Scope}
    (hstep : ∀ v i e, authenticate i s = .error e → step sanitize v i nilOid c = (.error e, v))
    {K : Identity → Prog Res} (hop : ∀ i, ∃ e k, K i = .op e k) {g : Locks} {w : World} (hi : ¬ g.holds j)
    (hne : ((d.verifyAccess t s).bind K).outcome = none)
    (hK : ∀ i g' w', (i.groups.map Prod.fst).Nodup → who t (some i) → scopeIn s i.scopes = true → ¬ g'.holds j →
      Lin VR j (K i) none g' w') : Lin VR j ((d.verifyAccess t s).bind K) none g w := by
  have hout : AllOut (fun out => match out with
      | .ok i => (i.groups.map Prod.fst).Nodup ∧ who t (some i) ∧ scopeIn s i.scopes = true
      | .err e => ∃ i, who t i ∧ authenticate i s = .error e
      | _ => False) (d.verifyAccess t s) := by
    rw [D1.verifyAccess]
    refine (hid t).2.attempt ?_ (fun e h => ⟨none, h, rfl⟩) (fun h => h) (fun h => h)
    rintro i ⟨h1, h2⟩
    simp only [← scopeIn_eq]
    cases hs : scopeIn s i.scopes
    · exact ⟨some i, h2, by simp [authenticate, hs]⟩
    · exact ⟨h1, h2, hs⟩
  refine Lin.bind_frame (R := VR) (Q := fun e => ∀ id dt, dt = dtObject ∨ dt = dtAccess → e.target ≠ some (id, dt)) ?_
    (allEff_verifyAccess (hid t).1 s)
    (A := fun i => (i.groups.map Prod.fst).Nodup ∧ who t (some i) ∧ scopeIn s i.scopes = true) (hout.mono ?_) hop (hout.mono ?_) hi ?_ hne
  · intro e he g w hinv
    refine untouched hinv (exec_t _ _ _) fun id => ⟨?_, ?_⟩
    · exact exec_frame (he _ _ (.inl rfl))
    · exact exec_frame (he _ _ (.inr rfl))
  · intro o; cases o <;> simp [Returns]
  · rintro o ho e g rfl
    obtain ⟨i, h1, h2⟩ := ho
    refine ⟨c, hc, lin_err ht h1 ?_ (hstep _ _ _ h2)⟩
    rintro rfl
    revert h2
    unfold authenticate
    split
    · simp
    · split <;> simp
  · rintro i g' w' ⟨h1, h2, h3⟩ hr
    exact hK i g' w' h1 h2 h3 (idle_of hi hr)

theorem move_err {e : Err} {g : Locks} (h : VaultStep env who c g.v (.err e) g.v) (hc : calls[j]? = some c) :
    (VR).move j none g (some (.err e)) g := .inr ⟨rfl, _, rfl, c, hc, h⟩

include L hid hc in
/-- The guard of a call on an object. -/
theorem lin_guard (hf : NoFault env) {t : GoString} (ht : c.token = t) {s : Scope} {oid : Oid}
    (hstep : ∀ v i, ∃ f, step sanitize v i nilOid c = guarded v i s oid f)
    {K : Access → Prog Res} {g : Locks} {w : World} (hi : ¬ g.holds j) (hne : ((guardProg P d t s oid).bind K).outcome = none)
    (hK : ∀ g' w' i e a, LockInv P d env calls limit g' w' → (VR).calm j g' → ¬ g'.holds j → who t (some i) → scopeIn s i.scopes = true →
      g'.v oid = some e → allowed i s e.members = true → AccAt P d w'.store oid a → (∀ x, a.groups.has x = e.members x) →
      ∃ g'' d', (VR).move j none g' d' g'' ∧ LockInv P d env calls limit g'' ⟨w'.store, w'.t + 1⟩ ∧
        (∀ i, i ≠ j → LockRely i g' w'.store g'' w'.store) ∧ Lin VR j (K a) d' g'' ⟨w'.store, w'.t + 1⟩) :
    Lin VR j ((guardProg P d t s oid).bind K) none g w := by
  rw [guardProg, Prog.bind_assoc] at hne ⊢
  refine lin_verify hid hc hf ht ?_ ?_ hi hne ?_
  · intro v i e h
    obtain ⟨f, hf⟩ := hstep v i
    rw [hf, guarded, h]
  · intro i; rw [getSealedAccess_op, op_bind, op_bind]; exact ⟨_, _, rfl⟩
  · intro i g1 w1 hn hw hs hi1
    rw [getSealedAccess_op, op_bind, op_bind]
    intro g' w' hr hinv hcalm _
    have hi' : ¬ g'.holds j := idle_of hi1 hr
    have hsame : (w'.exec env (.get oid.1 dtAccess)).2 = ⟨w'.store, w'.t + 1⟩ := exec_get_world hf _ _ _
    obtain ⟨f, hfs⟩ := hstep g'.v (some i)
    have hunt : LockInv P d env calls limit g' ⟨w'.store, w'.t + 1⟩ ∧ ∀ i, LockRely i g' w'.store g' w'.store :=
      untouched (w' := ⟨w'.store, w'.t + 1⟩) hinv rfl fun _ => ⟨rfl, rfl⟩
    have hA : authenticate (some i) s = .ok i := by simp [authenticate, hs]
    show ∃ g'' d', (VR).move j none g' d' g'' ∧ LockInv P d env calls limit g'' (w'.exec env (.get oid.1 dtAccess)).2 ∧
      (∀ i, i ≠ j → LockRely i g' w'.store g'' (w'.exec env (.get oid.1 dtAccess)).2.store) ∧
      Lin VR j ((((readAccess P oid (w'.exec env (.get oid.1 dtAccess)).1)).bind
        fun a => Prog.ofExcept (d.authorizeAccess P i s a)).bind K) d' g'' (w'.exec env (.get oid.1 dtAccess)).2
    rw [hsame]
    cases hv : g'.v oid with
    | none =>
      rw [readAccess_none hf (hinv.at_ oid) hv]
      refine ⟨g', some (.err .accessNotFound), move_err (lin_err ht hw (by simp) ?_) hc, hunt.1, fun i _ => hunt.2 i, rfl, hi'⟩
      rw [hfs, guarded, hA]
      simp only [hv]
    | some e =>
      have hacc := (hinv.at_ oid).acc
      rw [hv] at hacc
      obtain ⟨a, ha, hm⟩ := hacc
      obtain ⟨sa, hsa, hu⟩ := readAccess_some L hf (env := env) ha
      rw [hsa, ret_bind, authorize_eq hn hu hm]
      by_cases hal : allowed i s e.members = true
      · rw [if_pos hal]
        exact hK g' w' i e a hinv hcalm hi' hw hs hv hal ha hm
      · rw [if_neg hal]
        refine ⟨g', some (.err .notAuthorized), move_err (lin_err ht hw (by simp) ?_) hc, hunt.1, fun i _ => hunt.2 i, rfl, hi'⟩
        rw [hfs, guarded, hA]
        simp only [hv, hal, Bool.false_eq_true, if_false]

/-- Call `j` is changing the object and nothing else, and has not changed anything so far. -/
structure Held (P : Prims) (d : D1) (j : Nat) (oid : Oid) (g : Locks) (s : Store) : Prop where
  own : g.own oid = some j
  only : ∀ o, o ≠ oid → g.own o ≠ some j
  rd : ∀ o, ¬ g.rd o j
  rel : RelAt P d g s oid

theorem Held.stable {oid : Oid} {g g' : Locks} {s s' : Store} (h : Held P d j oid g s) (hr : LockRely j g s g' s') : Held P d j oid g' s' :=
  ⟨(hr.own oid).mpr h.own, fun o ho h' => h.only o ho ((hr.own o).mp h'), fun o h' => h.rd o ((hr.rd o).mp h'),
    h.rel.congr (hr.keep oid h.own).1 (hr.keep oid h.own).2.1 (hr.keep oid h.own).2.2⟩

theorem idle_at {oid : Oid} {g : Locks} (h1 : ∀ o, o ≠ oid → g.own o ≠ some j) (h2 : ∀ o, ¬ g.rd o j) (e : Option Entry) :
    ¬ (g.at oid e none (g.rd oid)).holds j := by
  rintro ⟨o, ho⟩
  by_cases h : o = oid
  · subst h
    rw [Locks.at_own, Locks.at_rd] at ho
    simp [h2] at ho
  · obtain ⟨-, a2, a3⟩ := g.at_ne h e none (g.rd oid)
    rw [a2, a3] at ho
    exact ho.elim (h1 o h) (h2 o)

/-- A call that has changed nothing can stop. -/
theorem Held.release {oid : Oid} {g : Locks} {w : World} (h : Held P d j oid g w.store) (hinv : LockInv P d env calls limit g w) :
    LockInv P d env calls limit (g.at oid (g.v oid) none (g.rd oid)) ⟨w.store, w.t + 1⟩ ∧
      ∀ i, i ≠ j → LockRely i g w.store (g.at oid (g.v oid) none (g.rd oid)) w.store := by
  refine touch (w' := ⟨w.store, w.t + 1⟩) hinv rfl (fun _ _ => ⟨rfl, rfl⟩) ⟨?_, fun _ => ?_, ?_, ?_⟩
    (hinv.notFresh (.inr (by rw [h.own]; simp))) (unowned (by rw [h.own]; exact own_ne) (by simp)) (fun i _ => ⟨.rfl, fun _ => rfl⟩)
  · rw [Locks.at_v]; exact (hinv.at_ oid).acc
  · exact h.rel.congr (g.at_v ..) rfl rfl
  · intro i hi; rw [Locks.at_own] at hi; cases hi
  · rw [Locks.at_rd, Locks.at_v]; exact (hinv.at_ oid).rd

/-- One effect. -/
theorem lin_step {e : Eff} {k : e.Resp → Prog Res} {dn : Option (Outcome Res)} {g : Locks} {w : World}
    (h : ∀ g' w', LockRely j g w.store g' w'.store → LockInv P d env calls limit g' w' → (VR).calm j g' → w'.t < limit →
      ∃ r w'', w'.exec env e = (r, w'') ∧ ∃ g'' d', (VR).move j dn g' d' g'' ∧ LockInv P d env calls limit g'' w'' ∧
        (∀ i, i ≠ j → LockRely i g' w'.store g'' w''.store) ∧ Lin VR j (k r) d' g'' w'') : Lin VR j (.op e k) dn g w := by
  intro g' w' h1 h2 h3 h4
  obtain ⟨r, w'', h5, h6⟩ := h g' w' h1 h2 h3 h4
  show ∃ g'' d', (VR).move j dn g' d' g'' ∧ LockInv P d env calls limit g'' (w'.exec env e).2 ∧
    (∀ i, i ≠ j → LockRely i g' w'.store g'' (w'.exec env e).2.store) ∧ Lin VR j (k (w'.exec env e).1) d' g'' (w'.exec env e).2
  rw [h5]
  exact h6

include hc in
theorem lin_rand {n : Nat} {oid : Oid} {g : Locks} {w : World} (hh : Held P d j oid g w.store) {K : BytesN n → Prog Res}
    (hK : ∀ b g' w', LockRely j g w.store g' w'.store → Lin VR j (K b) none g' w') : Lin VR j ((randBytes n).bind K) none g w := by
  rw [randBytes, op_bind]
  refine lin_step fun g' w' hr hinv _ _ => ⟨_, _, exec_rand _ _, ?_⟩
  have hh' := hh.stable hr
  cases hb : env.rand w'.t n with
  | none =>
    obtain ⟨h1, h2⟩ := hh'.release hinv
    exact ⟨g'.at oid (g'.v oid) none (g'.rd oid), some (.err .rand), .inr ⟨rfl, _, rfl, c, hc, .inr ⟨rfl, Vault.set_self _ _, _, _, hb⟩⟩, h1, h2, rfl, idle_at hh'.only hh'.rd _⟩
  | some b =>
    obtain ⟨h1, h2⟩ := untouched (w' := ⟨w'.store, w'.t + 1⟩) hinv rfl fun _ => ⟨rfl, rfl⟩
    exact ⟨g', none, .inl ⟨rfl, rfl⟩, h1, fun i _ => h2 i, hK b g' _ hr⟩

include L hc in
/-- Something is sealed. -/
theorem lin_seal {cr : Cryptor} {p a : J} {oid : Oid} {g : Locks} {w : World} (hh : Held P d j oid g w.store) {K : Bytes × Bytes → Prog Res}
    (hK : ∀ (k : BytesN 32) (n : BytesN 12) g' w', LockRely j g w.store g' w'.store →
      Lin VR j (K (kwpBox P cr.kwp k.1, gcmBox P k.1 n.1 a.render p.render)) none g' w') : Lin VR j ((cr.encrypt P p a).bind K) none g w := by
  rw [Cryptor.encrypt_eq L, Prog.bind_assoc]
  refine lin_rand hc hh fun k g1 w1 h1 => ?_
  rw [Prog.bind_assoc]
  refine lin_rand hc (hh.stable h1) fun n g2 w2 h2 => ?_
  exact hK k n g2 w2 (h1.trans h2)

/-- Taking an object in order to change it. -/
theorem acquire {g : Locks} {w : World} (hinv : LockInv P d env calls limit g w) (hcalm : (VR).calm j g) (hi : ¬ g.holds j) {oid : Oid}
    (hc : calls[j]? = some c) (hch : c.changes = true) (hon : c.onOid = some oid) {e : Entry} (hv : g.v oid = some e) :
    EntryAt P d w.store oid e ∧
    LockInv P d env calls limit (g.at oid (g.v oid) (some j) (g.rd oid)) ⟨w.store, w.t + 1⟩ ∧
      (∀ i, i ≠ j → LockRely i g w.store (g.at oid (g.v oid) (some j) (g.rd oid)) w.store) ∧
      Held P d j oid (g.at oid (g.v oid) (some j) (g.rd oid)) w.store := by
  have hfree : g.own oid = none := by
    cases ho : g.own oid with
    | none => rfl
    | some i =>
      exfalso
      by_cases hij : i = j
      · subst hij; exact hi ⟨oid, .inl ho⟩
      · obtain ⟨c', hc', ⟨-, h⟩ | ⟨h1, h2⟩⟩ := (hinv.at_ oid).own i ho
        · rw [hv] at h; cases h
        · exact hcalm i hij ⟨c', c, hc', hc, oid, h2, hon, .inl ⟨h1, hch⟩⟩ ⟨oid, .inl ho⟩
  have hrel : RelAt P d g w.store oid := (hinv.at_ oid).obj fun i c' h => by rw [hfree] at h; cases h
  have hent : EntryAt P d w.store oid e := by rw [RelAt, hv] at hrel; exact hrel
  have key := touch (j := j) (w' := ⟨w.store, w.t + 1⟩) (e := g.v oid) (own := some j) (rd := g.rd oid) hinv rfl (fun _ _ => ⟨rfl, rfl⟩)
    ⟨by rw [Locks.at_v]; exact (hinv.at_ oid).acc, fun _ => hrel.congr (g.at_v ..) rfl rfl, fun i h => by
      rw [Locks.at_own] at h
      cases h
      exact ⟨c, hc, .inr ⟨hch, hon⟩⟩, by rw [Locks.at_rd, Locks.at_v]; exact (hinv.at_ oid).rd⟩
    (hinv.notFresh (.inl (by rw [hv]; simp))) (unowned (by simp [hfree]) own_ne) (fun i _ => ⟨.rfl, fun _ => rfl⟩)
  refine ⟨hent, key.1, key.2, g.at_own .., fun o ho h => ?_, fun o h => ?_, hrel.congr (g.at_v ..) rfl rfl⟩
  · rw [(g.at_ne ho ..).2.1] at h; exact hi ⟨o, .inl h⟩
  · by_cases ho : o = oid
    · subst ho; rw [Locks.at_rd] at h; exact hi ⟨o, .inr h⟩
    · rw [(g.at_ne ho ..).2.2] at h; exact hi ⟨o, .inr h⟩

theorem store_other {s : Store} {oid o : Oid} (h : o ≠ oid) (dt dt' : DataType) (b : Option Bytes) : s.set oid.1 dt b o.1 dt' = s o.1 dt' :=
  Store.set_other _ _ _ _ _ _ fun h' => h (Subtype.ext h'.1)

include hc in
/-- Writing the access record: the call takes effect. -/
theorem lin_writeAccess (hf : NoFault env) {oid : Oid} {g : Locks} {w : World} {e e' : Entry} {x : Bytes}
    {K : Unit → Prog Res} {r : Res} (hK : ∀ u, K u = .ret r)
    (hown : g.own oid = some j) (honly : ∀ o, o ≠ oid → g.own o ≠ some j) (hrd : ∀ o, ¬ g.rd o j)
    (hv : g.v oid = some e) (hent : EntryAt P d (w.store.set oid.1 dtAccess (some x)) oid e')
    (hlin : ∀ v : Vault, v oid = some e → VaultStep env who c v (.ok r) (v.set oid (some e'))) :
    Lin VR j ((ioUpdate (onNotFound .accessNotFound) oid.1 dtAccess x).bind K) none g w := by
  rw [ioUpdate, op_bind]
  refine lin_step fun g' w' hr hinv _ _ => ?_
  obtain ⟨k1, k2, k3⟩ := hr.keep oid hown
  have hv' : g'.v oid = some e := k1.trans hv
  have hown' := (hr.own oid).mpr hown
  have hacc := (hinv.at_ oid).acc
  rw [hv'] at hacc
  obtain ⟨a, ⟨l, dek, k, n, hl, -⟩, -⟩ := hacc
  have hex : w'.exec env (.update oid.1 dtAccess x) = (.ok (), ⟨w'.store.set oid.1 dtAccess (some x), w'.t + 1⟩) := by
    rw [exec_none hf]
    simp only [Store.exec, hl]
  refine ⟨_, _, hex, ?_⟩
  have hent' : EntryAt P d (w'.store.set oid.1 dtAccess (some x)) oid e' := by
    refine hent.congr ?_ ?_
    · rw [Store.set_other _ _ _ _ _ _ (by simp [dtAccess, dtObject]), Store.set_other _ _ _ _ _ _ (by simp [dtAccess, dtObject]), k2]
    · rw [Store.set_same, Store.set_same]
  obtain ⟨h1, h2⟩ := touch (j := j) (w' := ⟨w'.store.set oid.1 dtAccess (some x), w'.t + 1⟩) (e := some e') (own := none) (rd := g'.rd oid)
    hinv rfl (fun o ho => ⟨store_other ho .., store_other ho ..⟩)
    ⟨by rw [Locks.at_v]; exact let ⟨a, ha, _, hm⟩ := hent'; ⟨a, ha, hm⟩, fun _ => by rw [RelAt, Locks.at_v]; exact hent', fun i h => (by
      rw [Locks.at_own] at h; cases h), by
      rw [Locks.at_rd, Locks.at_v]; exact fun i h => ⟨((hinv.at_ oid).rd i h).1, by simp⟩⟩
    (hinv.notFresh (.inl (by rw [hv']; simp))) (unowned (by rw [hown']; exact own_ne) (by simp))
    (fun i _ => ⟨.rfl, fun _ => Store.set_other _ _ _ _ _ _ (by simp [dtAccess, dtObject])⟩)
  refine ⟨g'.at oid (some e') none (g'.rd oid), some (.ok r), .inr ⟨rfl, _, rfl, c, hc, hlin _ hv'⟩, h1, h2, ?_⟩
  show Lin VR j (K ()) _ _ _
  rw [hK]
  exact ⟨rfl, idle_at (fun o ho h => honly o ho ((hr.own o).mp h)) (fun o h => hrd o ((hr.rd o).mp h)) _⟩

theorem move_stay {dn : Option (Outcome Res)} (g : Locks) (oid : Oid) (own : Option Nat) (rd : Nat → Prop) :
    (VR).move j dn g dn (g.at oid (g.v oid) own rd) := .inl ⟨rfl, Vault.set_self _ _⟩

/-! ## The calls -/

theorem guarded_ok_eq {v : Vault} {i : Identity} {s : Scope} {oid : Oid} {f : Entry → Res × Vault} {e : Entry} (hs : scopeIn s i.scopes = true)
    (hv : v oid = some e) (hal : allowed i s e.members = true) : guarded v (some i) s oid f = (.ok (f e).1, (f e).2) := by
  simp only [guarded, authenticate, hs, if_true, hv, hal]

/-- A call that ends with the read of the access record. -/
theorem lin_done {g : Locks} {w : World} (hinv : LockInv P d env calls limit g w) (hi : ¬ g.holds j) {r : Res} {K : Prog Res} (hK : K = .ret r)
    (hc : calls[j]? = some c) (h : VaultStep env who c g.v (.ok r) g.v) :
    ∃ g'' d', (VR).move j none g d' g'' ∧ LockInv P d env calls limit g'' ⟨w.store, w.t + 1⟩ ∧
      (∀ i, i ≠ j → LockRely i g w.store g'' w.store) ∧ Lin VR j K d' g'' ⟨w.store, w.t + 1⟩ := by
  obtain ⟨h1, h2⟩ := untouched (w' := ⟨w.store, w.t + 1⟩) hinv rfl fun _ => ⟨rfl, rfl⟩
  subst hK
  exact ⟨g, some (.ok r), .inr ⟨rfl, _, rfl, c, hc, h⟩, h1, fun i _ => h2 i, rfl, hi⟩

include L hid in
theorem lin_getGroups (hf : NoFault env) {t : GoString} {oid : Oid} (hc : calls[j]? = some (.getGroups t oid)) {g : Locks} {w : World}
    (hi : ¬ g.holds j) (hne : (callProg P d (.getGroups t oid)).outcome = none) : Lin VR j (callProg P d (.getGroups t oid)) none g w := by
  rw [callProg, getAccessGroups_eq, Prog.bind_assoc] at hne ⊢
  refine lin_guard L hid hc hf rfl (fun v i => ⟨_, rfl⟩) hi hne ?_
  intro g' w' i e a hinv _ hi' hw hs hv hal _ hm
  have : a.groups.has = e.members := funext hm
  refine lin_done hinv hi' (r := .groups e.members) (by rw [ret_bind, this]) hc (lin_ok rfl hw nilOid ?_)
  rw [step, guarded_ok_eq hs hv hal]

include L hid in
theorem lin_authorize (hf : NoFault env) {t : GoString} {oid : Oid} (hc : calls[j]? = some (.authorize t oid)) {g : Locks} {w : World}
    (hi : ¬ g.holds j) (hne : (callProg P d (.authorize t oid)).outcome = none) : Lin VR j (callProg P d (.authorize t oid)) none g w := by
  rw [callProg, authorizeIdentity_eq, Prog.bind_assoc] at hne ⊢
  refine lin_guard L hid hc hf rfl (fun v i => ⟨_, rfl⟩) hi hne ?_
  intro g' w' i e a hinv _ hi' hw hs hv hal _ hm
  refine lin_done hinv hi' (r := .unit) rfl hc (lin_ok rfl hw nilOid ?_)
  rw [step, guarded_ok_eq hs hv hal]

include L hid in
theorem lin_decrypt (hf : NoFault env) {t : GoString} {oid : Oid} (hc : calls[j]? = some (.decrypt t oid)) {g : Locks} {w : World}
    (hi : ¬ g.holds j) (hne : (callProg P d (.decrypt t oid)).outcome = none) : Lin VR j (callProg P d (.decrypt t oid)) none g w := by
  rw [callProg, decrypt_eq, Prog.bind_assoc] at hne ⊢
  refine lin_guard L hid hc hf rfl (fun v i => ⟨_, rfl⟩) hi hne ?_
  intro g' w' i e a hinv hcalm hi' hw hs hv hal ha hm
  have hrel : RelAt P d g' w'.store oid := by
    refine (hinv.at_ oid).obj fun k c' hk hc' => ?_
    have hkj : k ≠ j := by rintro rfl; exact hi' ⟨oid, .inl hk⟩
    obtain ⟨c2, hc2, h⟩ := (hinv.at_ oid).own k hk
    rw [hc'] at hc2
    cases hc2
    rcases h with ⟨-, h⟩ | ⟨h1, h2⟩
    · rw [hv] at h; cases h
    · refine ⟨?_, by revert h1; cases c' <;> simp [Call.changes, Call.encrypts]⟩
      cases hr : c'.replaces with
      | false => rfl
      | true => exact absurd ⟨oid, .inl hk⟩ (hcalm k hkj ⟨c', _, hc', hc, oid, h2, rfl, .inr (.inr ⟨hr, rfl⟩)⟩)
  have hent : EntryAt P d w'.store oid e := by rw [RelAt, hv] at hrel; exact hrel
  obtain ⟨a', ha', ho, -⟩ := hent
  obtain rfl := AccAt.unique L ha ha'
  obtain ⟨h1, h2⟩ := touch (j := j) (w' := ⟨w'.store, w'.t + 1⟩) (e := g'.v oid) (own := g'.own oid) (rd := fun k => g'.rd oid k ∨ k = j)
    hinv rfl (fun _ _ => ⟨rfl, rfl⟩)
    ⟨by rw [Locks.at_v]; exact (hinv.at_ oid).acc, fun _ => hrel.congr (g'.at_v ..) rfl rfl,
      by rw [Locks.at_own, Locks.at_v]; exact (hinv.at_ oid).own, by
      rw [Locks.at_rd, Locks.at_v]
      rintro k (hk | rfl)
      · exact (hinv.at_ oid).rd k hk
      · exact ⟨⟨t, hc⟩, by rw [hv]; simp⟩⟩
    (hinv.notFresh (.inl (by rw [hv]; simp))) (fun i hi => ⟨.rfl, fun _ => ⟨rfl, rfl, rfl⟩⟩) (fun i hi => ⟨by simp [hi], fun _ => rfl⟩)
  refine ⟨_, some (.ok (.object e.object)), .inr ⟨rfl, _, rfl, _, hc, ?_⟩, h1, h2, ?_⟩
  · show VaultStep env who _ g'.v _ (Vault.set g'.v oid (g'.v oid))
    rw [Vault.set_self]
    refine lin_ok rfl hw nilOid ?_
    rw [step, guarded_ok_eq hs hv hal]
  · rw [getSealedObject, Prog.bind_eq, ioGet, op_bind, op_bind, op_bind]
    refine lin_step fun g2 w2 hr hinv2 _ _ => ?_
    have hrd : (g'.at oid (g'.v oid) (g'.own oid) (fun k => g'.rd oid k ∨ k = j)).rd oid j := by rw [Locks.at_rd]; exact .inr rfl
    have ho2 : ObjAt P d w2.store oid e.object a.wrappedDEK := ho.congr (hr.read oid hrd)
    obtain ⟨b, so, hb1, hso, hu⟩ := unseal_objAt L ho2
    have hex : w2.exec env (.get oid.1 dtObject) = (.ok b, ⟨w2.store, w2.t + 1⟩) := by
      rw [exec_none hf]
      simp only [Store.exec, hb1]
    refine ⟨_, _, hex, ?_⟩
    have hrd2 := (hr.rd oid).mpr hrd
    obtain ⟨k1, k2⟩ := touch (j := j) (w' := ⟨w2.store, w2.t + 1⟩) (e := g2.v oid) (own := g2.own oid) (rd := fun k => g2.rd oid k ∧ k ≠ j)
      hinv2 rfl (fun _ _ => ⟨rfl, rfl⟩)
      ⟨by rw [Locks.at_v]; exact (hinv2.at_ oid).acc, by
          rw [Locks.at_own]; exact fun h => ((hinv2.at_ oid).obj h).congr (g2.at_v ..) rfl rfl,
        by rw [Locks.at_own, Locks.at_v]; exact (hinv2.at_ oid).own, by
        rw [Locks.at_rd, Locks.at_v]
        rintro k ⟨hk, -⟩
        exact (hinv2.at_ oid).rd k hk⟩
      (hinv2.notFresh (.inl ((hinv2.at_ oid).rd j hrd2).2)) (fun i hi => ⟨.rfl, fun _ => ⟨rfl, rfl, rfl⟩⟩) (fun i hi => ⟨by simp [hi], fun _ => rfl⟩)
    refine ⟨_, some (.ok (.object e.object)), move_stay _ _ _ _, k1, k2, ?_⟩
    simp only [ret_bind, hso, Prog.pure_eq, hu]
    refine ⟨rfl, ?_⟩
    rintro ⟨o, ho⟩
    by_cases h : o = oid
    · subst h
      rw [Locks.at_own, Locks.at_rd] at ho
      rcases ho with ho | ho
      · have := (hr.own o).mp ho
        rw [Locks.at_own] at this
        exact hi' ⟨o, .inl this⟩
      · exact ho.2 rfl
    · rw [(g2.at_ne h ..).2.1, (g2.at_ne h ..).2.2] at ho
      rcases ho with ho | ho
      · have := (hr.own o).mp ho
        rw [(g'.at_ne h ..).2.1] at this
        exact hi' ⟨o, .inl this⟩
      · have := (hr.rd o).mp ho
        rw [(g'.at_ne h ..).2.2] at this
        exact hi' ⟨o, .inr this⟩

include L hid in
theorem lin_addGroups (hf : NoFault env) {t : GoString} {oid : Oid} {gs : List GoString} (hc : calls[j]? = some (.addGroups t oid gs)) {g : Locks}
    {w : World} (hi : ¬ g.holds j) (hne : (callProg P d (.addGroups t oid gs)).outcome = none) :
    Lin VR j (callProg P d (.addGroups t oid gs)) none g w := by
  rw [callProg, addGroupsToAccess_eq, Prog.bind_assoc] at hne ⊢
  refine lin_guard L hid hc hf rfl (fun v i => ⟨_, rfl⟩) hi hne ?_
  intro g' w' i e a hinv hcalm hi' hw hs hv hal ha hm
  obtain ⟨⟨a', ha', ho, -⟩, h1, h2, hh⟩ := acquire hinv hcalm hi' hc rfl rfl hv
  obtain rfl := AccAt.unique L ha ha'
  refine ⟨_, none, move_stay _ _ _ _, h1, h2, ?_⟩
  obtain ⟨l, dek, ak, an, hac, rfl⟩ := ha
  simp only [Access.addGroups, addToSet_some, Option.map_some, Prog.ofPanic_some, Prog.ret_bind]
  rw [sealAccess_bind, Prog.bind_assoc]
  refine lin_seal L hc (w := ⟨w'.store, w'.t + 1⟩) hh fun k n g2 w2 hr => ?_
  have hh2 := hh.stable hr
  obtain ⟨k1, k2, k3⟩ := hr.keep oid hh.own
  simp only [putSealedAccess, if_true]
  refine lin_writeAccess hc hf (e := e) (e' := ⟨e.object, fun x => e.members x || gs.any fun g => sanitize g == x⟩) (r := .unit) (fun _ => rfl)
    hh2.own hh2.only hh2.rd (by rw [k1, Locks.at_v]; exact hv) ⟨_, ⟨_, _, _, _, Store.set_same _ _ _ _, rfl⟩,
      ho.congr ((Store.set_other _ _ _ _ _ _ (by simp [dtAccess, dtObject])).trans k2), fun x => ?_⟩ ?_
  · rw [has_added]
    simp only [← hm x]
  · intro v hv
    refine lin_ok rfl hw nilOid ?_
    rw [step, guarded_ok_eq hs hv hal]

include L hid in
theorem lin_removeGroups (hf : NoFault env) {t : GoString} {oid : Oid} {gs : List GoString} (hc : calls[j]? = some (.removeGroups t oid gs))
    {g : Locks} {w : World} (hi : ¬ g.holds j) (hne : (callProg P d (.removeGroups t oid gs)).outcome = none) :
    Lin VR j (callProg P d (.removeGroups t oid gs)) none g w := by
  rw [callProg, removeGroupsFromAccess_eq, Prog.bind_assoc] at hne ⊢
  refine lin_guard L hid hc hf rfl (fun v i => ⟨_, rfl⟩) hi hne ?_
  intro g' w' i e a hinv hcalm hi' hw hs hv hal ha hm
  obtain ⟨⟨a', ha', ho, -⟩, h1, h2, hh⟩ := acquire hinv hcalm hi' hc rfl rfl hv
  obtain rfl := AccAt.unique L ha ha'
  refine ⟨_, none, move_stay _ _ _ _, h1, h2, ?_⟩
  obtain ⟨l, dek, ak, an, hac, rfl⟩ := ha
  simp only [Access.removeGroups, removeFromSet, Option.map_some]
  rw [sealAccess_bind, Prog.bind_assoc]
  refine lin_seal L hc (w := ⟨w'.store, w'.t + 1⟩) hh fun k n g2 w2 hr => ?_
  have hh2 := hh.stable hr
  obtain ⟨k1, k2, k3⟩ := hr.keep oid hh.own
  simp only [putSealedAccess, if_true]
  refine lin_writeAccess hc hf (e := e) (e' := ⟨e.object, fun x => e.members x && !gs.contains x⟩) (r := .unit) (fun _ => rfl)
    hh2.own hh2.only hh2.rd (by rw [k1, Locks.at_v]; exact hv) ⟨_, ⟨_, _, _, _, Store.set_same _ _ _ _, rfl⟩,
      ho.congr ((Store.set_other _ _ _ _ _ _ (by simp [dtAccess, dtObject])).trans k2), fun x => ?_⟩ ?_
  · rw [has_removed]
    simp only [← hm x]
  · intro v hv
    refine lin_ok rfl hw nilOid ?_
    rw [step, guarded_ok_eq hs hv hal]

/-- Nobody is reading an object that is being replaced. -/
theorem unread {g : Locks} {w : World} (hinv : LockInv P d env calls limit g w) (hcalm : (VR).calm j g) {oid : Oid}
    (hc : calls[j]? = some c) (hch : c.replaces = true) (hon : c.onOid = some oid) {A : Nat → Prop} :
    ∀ i, i ≠ j → (g.rd oid i ↔ g.rd oid i) ∧ (g.rd oid i → A i) := by
  refine fun i hi => ⟨.rfl, fun h => ?_⟩
  obtain ⟨⟨t, ht⟩, -⟩ := (hinv.at_ oid).rd i h
  exact absurd ⟨oid, .inr h⟩ (hcalm i hi ⟨_, c, ht, hc, oid, rfl, hon, .inr (.inl ⟨rfl, hch⟩)⟩)

include L hid in
theorem lin_update (hf : NoFault env) {t : GoString} {oid : Oid} {o : Object} (hc : calls[j]? = some (.update t oid o)) {g : Locks}
    {w : World} (hi : ¬ g.holds j) (hne : (callProg P d (.update t oid o)).outcome = none) :
    Lin VR j (callProg P d (.update t oid o)) none g w := by
  rw [callProg, update_eq, Prog.bind_assoc] at hne ⊢
  refine lin_guard L hid hc hf rfl (fun v i => ⟨_, rfl⟩) hi hne ?_
  intro g' w' i e a hinv hcalm hi' hw hs hv hal ha hm
  obtain ⟨⟨a', ha', ho, -⟩, h1, h2, hh⟩ := acquire hinv hcalm hi' hc rfl rfl hv
  obtain rfl := AccAt.unique L ha ha'
  refine ⟨_, none, move_stay _ _ _ _, h1, h2, ?_⟩
  obtain ⟨l, dek, ak, an, hac, rfl⟩ := ha
  simp only [sealObject_bind, sealAccess_bind, Prog.bind_assoc]
  refine lin_seal L hc (w := ⟨w'.store, w'.t + 1⟩) hh fun k n g2 w2 hr => ?_
  refine lin_seal L hc (hh.stable hr) fun k' n' g3 w3 hr3 => ?_
  have hr3 := hr.trans hr3
  have hh3 := hh.stable hr3
  simp only [putSealedObject, putSealedAccess, if_true]
  rw [ioUpdate, op_bind]
  refine lin_step fun g4 w4 hr4 hinv4 hcalm4 _ => ?_
  have hr4 := hr3.trans hr4
  have hh4 := hh.stable hr4
  obtain ⟨k1, k2, k3⟩ := hr4.keep oid hh.own
  rw [Locks.at_v] at k1
  obtain ⟨ok, on, hob, -⟩ := ho.congr k2
  generalize hx : (⟨some _, o.associatedData, oid⟩ : SealedObject).toJ.render = x
  have hex : w4.exec env (.update oid.1 dtObject x) = (.ok (), ⟨w4.store.set oid.1 dtObject (some x), w4.t + 1⟩) := by
    rw [exec_none hf]
    simp only [Store.exec, hob]
  refine ⟨_, _, hex, ?_⟩
  obtain ⟨t1, t2⟩ := touch (j := j) (w' := ⟨w4.store.set oid.1 dtObject (some x), w4.t + 1⟩) (e := g4.v oid) (own := some j) (rd := g4.rd oid)
    hinv4 rfl (fun o ho => ⟨store_other ho .., store_other ho ..⟩)
    ⟨by
      have := (hinv4.at_ oid).acc
      rw [Locks.at_v]
      rw [k1, hv] at this ⊢
      obtain ⟨a, ha, hm⟩ := this
      exact ⟨a, ha.congr (Store.set_other _ _ _ _ _ _ (by simp [dtAccess, dtObject])), hm⟩, fun h => (by
      have := (h j _ (g4.at_own ..) hc).1
      cases this), fun i h => by
      rw [Locks.at_own] at h
      cases h
      exact ⟨_, hc, .inr ⟨rfl, rfl⟩⟩, by rw [Locks.at_rd, Locks.at_v]; exact (hinv4.at_ oid).rd⟩
    (hinv4.notFresh (.inr (by rw [hh4.own]; simp))) (unowned (by rw [hh4.own]; exact own_ne) own_ne) (unread hinv4 hcalm4 hc rfl rfl)
  refine ⟨_, none, move_stay _ _ _ _, t1, t2, ?_⟩
  simp only [ret_bind]
  refine lin_writeAccess hc hf (e := e) (e' := ⟨o, e.members⟩) (r := .unit) (fun _ => rfl) (g4.at_own ..)
    (fun o ho => by rw [(g4.at_ne ho ..).2.1]; exact hh4.only o ho) (fun o => ?_) (by rw [Locks.at_v, k1, hv]) ⟨_,
      ⟨_, _, _, _, Store.set_same _ _ _ _, rfl⟩, ⟨k, n, ?_, rfl⟩, fun x => ?_⟩ ?_
  · by_cases h : o = oid
    · subst h; rw [Locks.at_rd]; exact hh4.rd o
    · rw [(g4.at_ne h ..).2.2]; exact hh4.rd o
  · rw [Store.set_other _ _ _ _ _ _ (by simp [dtAccess, dtObject])]
    simp only
    rw [Store.set_same, ← hx]
    rfl
  · rw [← hm x, has_sanList, GoSet.has, Bool.eq_iff_iff]
    simp only [List.any_eq_true, beq_iff_eq, decide_eq_true_eq]
    constructor
    · rintro ⟨g, hg, rfl⟩; rw [mem_sanList_san _ _ hg]; exact hg
    · intro hx; exact ⟨x, hx, mem_sanList_san _ _ hx⟩
  · intro v hv
    refine lin_ok rfl hw nilOid ?_
    rw [step, guarded_ok_eq hs hv hal]

include L hid in
theorem lin_delete (hf : NoFault env) {t : GoString} {oid : Oid} (hc : calls[j]? = some (.delete t oid)) {g : Locks}
    {w : World} (hi : ¬ g.holds j) (hne : (callProg P d (.delete t oid)).outcome = none) :
    Lin VR j (callProg P d (.delete t oid)) none g w := by
  simp only [callProg, D1.delete, Prog.bind_eq, Prog.bind_assoc, getSealedAccess_op, Prog.attempt_bind] at hne ⊢
  refine lin_verify hid hc hf rfl ?_ (fun i => ⟨_, _, rfl⟩) hi hne ?_
  · intro v i e h
    simp only [step, h]
  intro i g1 w1 hn hw hs hi1
  refine lin_step fun g' w' hr hinv hcalm _ => ?_
  refine ⟨(w'.exec env (.get oid.1 dtAccess)).1, ⟨w'.store, w'.t + 1⟩, Prod.ext rfl (exec_get_world hf _ _ _), ?_⟩
  have hi' : ¬ g'.holds j := idle_of hi1 hr
  have hA : authenticate (some i) scopeDelete = .ok i := by simp [authenticate, hs]
  cases hv : g'.v oid with
  | none =>
    rw [readAccess_none hf (hinv.at_ oid) hv]
    refine lin_done hinv hi' (r := .unit) rfl hc (lin_ok rfl hw nilOid ?_)
    simp only [step, hA, hv]
  | some e =>
    have hacc := (hinv.at_ oid).acc
    rw [hv] at hacc
    obtain ⟨a, ha, hm⟩ := hacc
    obtain ⟨sa, hsa, hu⟩ := readAccess_some L hf (env := env) ha
    rw [hsa]
    simp only [Prog.attempt, authorize_eq hn hu hm]
    by_cases hal : allowed i scopeDelete e.members = true
    swap
    · rw [if_neg hal]
      obtain ⟨u1, u2⟩ := untouched (w' := ⟨w'.store, w'.t + 1⟩) hinv rfl fun _ => ⟨rfl, rfl⟩
      refine ⟨g', some (.err .notAuthorized), move_err (lin_err rfl hw (by simp) ?_) hc, u1, fun i _ => u2 i, rfl, hi'⟩
      simp only [step, hA, hv, hal, Bool.false_eq_true, if_false]
    rw [if_pos hal]
    obtain ⟨-, h1, h2, hh⟩ := acquire hinv hcalm hi' hc rfl rfl hv
    refine ⟨_, none, move_stay _ _ _ _, h1, h2, ?_⟩
    simp only [Prog.ofExcept_ok, ret_bind, deleteSealedObject, deleteSealedAccess]
    rw [ioDelete, op_bind, op_bind]
    refine lin_step fun g4 w4 hr4 hinv4 hcalm4 _ => ?_
    have hh4 := hh.stable hr4
    obtain ⟨k1, k2, k3⟩ := hr4.keep oid hh.own
    rw [Locks.at_v] at k1
    refine ⟨_, _, exec_none hf _ _, ?_⟩
    simp only [Store.exec]
    obtain ⟨t1, t2⟩ := touch (j := j) (w' := ⟨w4.store.set oid.1 dtObject none, w4.t + 1⟩) (e := g4.v oid) (own := some j) (rd := g4.rd oid)
      hinv4 rfl (fun o ho => ⟨store_other ho .., store_other ho ..⟩)
      ⟨by
        have := (hinv4.at_ oid).acc
        rw [Locks.at_v]
        rw [k1, hv] at this ⊢
        obtain ⟨a, ha, hm⟩ := this
        exact ⟨a, ha.congr (Store.set_other _ _ _ _ _ _ (by simp [dtAccess, dtObject])), hm⟩, fun h => (by
        have := (h j _ (g4.at_own ..) hc).1
        cases this), fun i h => by
        rw [Locks.at_own] at h
        cases h
        exact ⟨_, hc, .inr ⟨rfl, rfl⟩⟩, by rw [Locks.at_rd, Locks.at_v]; exact (hinv4.at_ oid).rd⟩
      (hinv4.notFresh (.inr (by rw [hh4.own]; simp))) (unowned (by rw [hh4.own]; exact own_ne) own_ne) (unread hinv4 hcalm4 hc rfl rfl)
    refine ⟨_, none, move_stay _ _ _ _, t1, t2, ?_⟩
    simp only [ret_bind]
    rw [ioDelete, op_bind]
    have ho5 : (g4.at oid (g4.v oid) (some j) (g4.rd oid)).own oid = some j := g4.at_own ..
    refine lin_step fun g5 w5 hr5 hinv5 hcalm5 _ => ?_
    obtain ⟨l1, l2, l3⟩ := hr5.keep oid ho5
    rw [Locks.at_v, k1, hv] at l1
    have hown5 := (hr5.own oid).mpr ho5
    refine ⟨_, _, exec_none hf _ _, ?_⟩
    simp only [Store.exec]
    have hno : ∀ k, ¬ g5.rd oid k := by
      intro k hk
      by_cases hkj : k = j
      · subst hkj
        have := (hr5.rd oid).mp hk
        rw [Locks.at_rd] at this
        exact hh4.rd oid this
      · exact (unread (A := fun _ => False) hinv5 hcalm5 hc rfl rfl k hkj).2 hk
    have hobj : w5.store oid.1 dtObject = none := l2.trans (Store.set_same _ _ _ _)
    obtain ⟨t1, t2⟩ := touch (j := j) (w' := ⟨w5.store.set oid.1 dtAccess none, w5.t + 1⟩) (e := none) (own := none) (rd := g5.rd oid)
      hinv5 rfl (fun o ho => ⟨store_other ho .., store_other ho ..⟩)
      ⟨by rw [Locks.at_v]; exact Store.set_same _ _ _ _, fun _ => (by
        rw [RelAt, Locks.at_v]
        exact ⟨(Store.set_other _ _ _ _ _ _ (by simp [dtAccess, dtObject])).trans hobj, Store.set_same _ _ _ _⟩), fun i h => (by
        rw [Locks.at_own] at h
        cases h), by rw [Locks.at_rd]; exact fun k hk => absurd hk (hno k)⟩
      (hinv5.notFresh (.inr (by rw [hown5]; simp))) (unowned (by rw [hown5]; exact own_ne) (by simp)) (unread hinv5 hcalm5 hc rfl rfl)
    refine ⟨g5.at oid none none (g5.rd oid), some (.ok .unit), .inr ⟨rfl, _, rfl, _, hc, lin_ok rfl hw nilOid ?_⟩, t1, t2, rfl, ?_⟩
    · show step _ g5.v _ _ _ = (_, Vault.set g5.v oid none)
      simp only [step, hA, l1, hal, if_true]
    · refine idle_at (fun o ho h => ?_) (fun o h => ?_) _
      · have := (hr5.own o).mp h
        rw [(g4.at_ne ho ..).2.1] at this
        exact hh4.only o ho this
      · have := (hr5.rd o).mp h
        by_cases ho : o = oid
        · subst ho; rw [Locks.at_rd] at this; exact hh4.rd o this
        · rw [(g4.at_ne ho ..).2.2] at this; exact hh4.rd o this

include L hid in
theorem lin_encrypt (hf : NoFault env) {t : GoString} {o : Object} {gs : List GoString} (hc : calls[j]? = some (.encrypt t o gs)) {g : Locks}
    {w : World} (hi : ¬ g.holds j) (hne : (callProg P d (.encrypt t o gs)).outcome = none) :
    Lin VR j (callProg P d (.encrypt t o gs)) none g w := by
  simp only [callProg, D1.encrypt, Prog.bind_eq, Prog.bind_assoc] at hne ⊢
  refine lin_verify hid hc hf rfl ?_ (fun i => ⟨_, _, rfl⟩) hi hne ?_
  · intro v i e h
    simp only [step, h]
  intro i g1 w1 hn hw hs hi1
  refine lin_step fun g' w' hr hinv hcalm ht => ⟨_, _, exec_rand _ _, ?_⟩
  have hi' : ¬ g'.holds j := idle_of hi1 hr
  have hA : authenticate (some i) scopeEncrypt = .ok i := by simp [authenticate, hs]
  cases hb : env.rand w'.t 16 with
  | none =>
    obtain ⟨u1, u2⟩ := untouched (w' := ⟨w'.store, w'.t + 1⟩) hinv rfl fun _ => ⟨rfl, rfl⟩
    exact ⟨g', some (.err .rand), .inr ⟨rfl, _, rfl, _, hc, .inr ⟨rfl, rfl, _, _, hb⟩⟩, u1, fun i _ => u2 i, rfl, hi'⟩
  | some b =>
    obtain ⟨⟨f1, f2⟩, hdist⟩ := hinv.fresh w'.t b (Nat.le_refl _) ht hb
    simp only [ret_bind, Prog.pure_eq]
    generalize hoid : mkV4 b = oid at f1 f2
    have hrel : RelAt P d g' w'.store oid := (hinv.at_ oid).obj fun i c' h => by rw [f1] at h; cases h
    obtain ⟨t1, t2⟩ := touch (j := j) (w' := ⟨w'.store, w'.t + 1⟩) (e := g'.v oid) (own := some j) (rd := g'.rd oid)
      hinv rfl (fun _ _ => ⟨rfl, rfl⟩)
      ⟨by rw [Locks.at_v]; exact (hinv.at_ oid).acc, fun _ => hrel.congr (g'.at_v ..) rfl rfl, fun i h => by
        rw [Locks.at_own] at h
        cases h
        exact ⟨_, hc, .inl ⟨rfl, by rw [Locks.at_v]; exact f2⟩⟩, by rw [Locks.at_rd, Locks.at_v]; exact (hinv.at_ oid).rd⟩
      (fun t' b' h1 h2 h3 => by rw [← hoid]; exact Ne.symm (hdist _ _ h1 h2 h3)) (unowned (by simp [f1]) own_ne)
      (fun i _ => ⟨.rfl, fun _ => rfl⟩)
    have hh : Held P d j oid (g'.at oid (g'.v oid) (some j) (g'.rd oid)) w'.store := by
      refine ⟨g'.at_own .., fun o ho h => ?_, fun o h => ?_, hrel.congr (g'.at_v ..) rfl rfl⟩
      · rw [(g'.at_ne ho ..).2.1] at h; exact hi' ⟨o, .inl h⟩
      · by_cases ho : o = oid
        · subst ho; rw [Locks.at_rd] at h; exact hi' ⟨o, .inr h⟩
        · rw [(g'.at_ne ho ..).2.2] at h; exact hi' ⟨o, .inr h⟩
    refine ⟨_, none, move_stay _ _ _ _, t1, t2, ?_⟩
    simp only [sealObject_bind, Access.addGroups, newAccess, addToSet_some, Option.map_some, Prog.ofPanic_some, Prog.ret_bind, sealAccess_bind]
    refine lin_seal L hc (w := ⟨w'.store, w'.t + 1⟩) hh fun k n g2 w2 hr => ?_
    refine lin_seal L hc (hh.stable hr) fun k' n' g3 w3 hr3 => ?_
    have hr3 := hr.trans hr3
    have hh3 := hh.stable hr3
    simp only [putSealedObject, putSealedAccess, if_true, Bool.false_eq_true, if_false]
    rw [ioPut, op_bind]
    refine lin_step fun g4 w4 hr4 hinv4 hcalm4 _ => ?_
    have hr4 := hr3.trans hr4
    have hh4 := hh.stable hr4
    obtain ⟨k1, k2, k3⟩ := hr4.keep oid hh.own
    rw [Locks.at_v, f2] at k1
    have hrel4 := hh4.rel
    rw [RelAt, k1] at hrel4
    generalize hx : (⟨some _, o.associatedData, oid⟩ : SealedObject).toJ.render = x
    have hno : ∀ k, ¬ g4.rd oid k := fun k hk => ((hinv4.at_ oid).rd k hk).2 k1
    have hex : w4.exec env (.put oid.1 dtObject x) = (.ok (), ⟨w4.store.set oid.1 dtObject (some x), w4.t + 1⟩) := by
      rw [exec_none hf]
      simp only [Store.exec, hrel4.1]
    refine ⟨_, _, hex, ?_⟩
    obtain ⟨t1, t2⟩ := touch (j := j) (w' := ⟨w4.store.set oid.1 dtObject (some x), w4.t + 1⟩) (e := g4.v oid) (own := some j) (rd := g4.rd oid)
      hinv4 rfl (fun o ho => ⟨store_other ho .., store_other ho ..⟩)
      ⟨by
        rw [Locks.at_v, k1]
        exact (Store.set_other _ _ _ _ _ _ (by simp [dtAccess, dtObject])).trans hrel4.2, fun h => (by
        have := (h j _ (g4.at_own ..) hc).2
        cases this), fun i h => by
        rw [Locks.at_own] at h
        cases h
        exact ⟨_, hc, .inl ⟨rfl, by rw [Locks.at_v]; exact k1⟩⟩, by rw [Locks.at_rd, Locks.at_v]; exact (hinv4.at_ oid).rd⟩
      (hinv4.notFresh (.inr (by rw [hh4.own]; simp))) (unowned (by rw [hh4.own]; exact own_ne) own_ne)
      (fun i _ => ⟨.rfl, fun h => absurd h (hno i)⟩)
    refine ⟨_, none, move_stay _ _ _ _, t1, t2, ?_⟩
    simp only [ret_bind]
    rw [ioPut, op_bind]
    have ho5 : (g4.at oid (g4.v oid) (some j) (g4.rd oid)).own oid = some j := g4.at_own ..
    refine lin_step fun g5 w5 hr5 hinv5 hcalm5 _ => ?_
    obtain ⟨l1, l2, l3⟩ := hr5.keep oid ho5
    rw [Locks.at_v, k1] at l1
    have hown5 := (hr5.own oid).mpr ho5
    have hacc5 : w5.store oid.1 dtAccess = none :=
      l3.trans ((Store.set_other _ _ _ _ _ _ (by simp [dtAccess, dtObject])).trans hrel4.2)
    have hobj5 : w5.store oid.1 dtObject = some x := l2.trans (Store.set_same _ _ _ _)
    have hno5 : ∀ k, ¬ g5.rd oid k := fun k hk => ((hinv5.at_ oid).rd k hk).2 l1
    generalize hy : (⟨oid, some _, some _⟩ : SealedAccess).toJ.render = y
    have hex : w5.exec env (.put oid.1 dtAccess y) = (.ok (), ⟨w5.store.set oid.1 dtAccess (some y), w5.t + 1⟩) := by
      rw [exec_none hf]
      simp only [Store.exec, hacc5]
    refine ⟨_, _, hex, ?_⟩
    have hent : EntryAt P d (w5.store.set oid.1 dtAccess (some y)) oid ⟨o, fun x => (gs ++ [i.id]).any fun g => sanitize g == x⟩ := by
      refine ⟨_, ⟨_, _, _, _, by rw [Store.set_same, ← hy]; rfl, rfl⟩, ⟨k, n, ?_, rfl⟩, ?_⟩
      · rw [Store.set_other _ _ _ _ _ _ (by simp [dtAccess, dtObject]), hobj5, ← hx]
        rfl
      · intro x
        rw [has_sanList, Bool.eq_iff_iff]
        simp only [List.any_eq_true, mem_foldl_setInsert, List.not_mem_nil, false_or]
    obtain ⟨t1, t2⟩ := touch (j := j) (w' := ⟨w5.store.set oid.1 dtAccess (some y), w5.t + 1⟩)
      (e := some ⟨o, fun x => (gs ++ [i.id]).any fun g => sanitize g == x⟩) (own := none) (rd := g5.rd oid)
      hinv5 rfl (fun o ho => ⟨store_other ho .., store_other ho ..⟩)
      ⟨by rw [Locks.at_v]; exact let ⟨a, ha, _, hm⟩ := hent; ⟨a, ha, hm⟩, fun _ => (by rw [RelAt, Locks.at_v]; exact hent), fun i h => (by
        rw [Locks.at_own] at h
        cases h), by rw [Locks.at_rd]; exact fun k hk => absurd hk (hno5 k)⟩
      (hinv5.notFresh (.inr (by rw [hown5]; simp))) (unowned (by rw [hown5]; exact own_ne) (by simp))
      (fun i _ => ⟨.rfl, fun h => absurd h (hno5 i)⟩)
    refine ⟨g5.at oid _ none (g5.rd oid), some (.ok (.oid oid)), .inr ⟨rfl, _, rfl, _, hc, lin_ok rfl hw oid ?_⟩, t1, t2, rfl, ?_⟩
    · show step _ g5.v _ _ _ = (_, Vault.set g5.v oid _)
      simp only [step, hA, l1]
    · refine idle_at (fun o ho h => ?_) (fun o h => ?_) _
      · have := (hr5.own o).mp h
        rw [(g4.at_ne ho ..).2.1] at this
        exact hh4.only o ho this
      · have := (hr5.rd o).mp h
        by_cases ho : o = oid
        · subst ho; rw [Locks.at_rd] at this; exact hh4.rd o this
        · rw [(g4.at_ne ho ..).2.2] at this; exact hh4.rd o this

include L hid in
theorem lin_call (hf : NoFault env) (hc : calls[j]? = some c) {g : Locks} {w : World} (hi : ¬ g.holds j)
    (hne : (callProg P d c).outcome = none) : Lin VR j (callProg P d c) none g w := by
  cases c with
  | encrypt t o gs => exact lin_encrypt L hid hf hc hi hne
  | update t oid o => exact lin_update L hid hf hc hi hne
  | decrypt t oid => exact lin_decrypt L hid hf hc hi hne
  | delete t oid => exact lin_delete L hid hf hc hi hne
  | getGroups t oid => exact lin_getGroups L hid hf hc hi hne
  | addGroups t oid gs => exact lin_addGroups L hid hf hc hi hne
  | removeGroups t oid gs => exact lin_removeGroups L hid hf hc hi hne
  | authorize t oid => exact lin_authorize L hid hf hc hi hne

end

/-- Call `i` is in progress when effect number `n` of the schedule happens: it has begun and not ended. -/
def InProgress {α : Type} (env : Env) (sch : List Nat) (w : World) (ps : List (Prog α)) (n i : Nat) : Prop :=
  i ∈ sch.take (n + 1) ∧ ∃ p, (sched env (sch.take n) w ps).2[i]? = some p ∧ p.outcome = none

/-- C69.  Any calls run concurrently on an IO Provider that does not fail, callers may crash, the object IDs drawn are
new, and no two conflicting calls are ever in progress at the same time.  Then there is an order `l` of calls and their results such that
* the vault gives these results when the calls are made one after the other in this order;
* the order agrees with real time: at any moment `n`, the calls that have ended so far are in the first part of it, with the results they
  reported, and the calls that have not begun are not;
* at the end the store represents the vault, except for objects that a call in progress is creating, replacing or deleting.
For calls that conflict this is false: `C12_update_unreadable`, `C12_update_add`, `C12_lost_add`, `C12_lost_remove`. -/
theorem C69_linearizable {P : Prims} (L : P.Laws) {d : D1} {env : Env} (hf : NoFault env) {who : GoString → Option Identity → Prop}
    (hid : IdpTells d who) {v : Vault} {w : World} (hR : Rel P d w.store v) (calls : List Call) (sch : List Nat)
    (hfresh : FreshIds env w.store w.t (w.t + sch.length))
    (hno : ∀ n, n < sch.length → ∀ i j a b, i ≠ j → calls[i]? = some a → calls[j]? = some b →
      InProgress env sch w (calls.map (callProg P d)) n i → InProgress env sch w (calls.map (callProg P d)) n j → ¬ Conflict a b) :
    ∃ l v', LinRun (fun j v out v' => ∃ c, calls[j]? = some c ∧ VaultStep env who c v out v') l v v' ∧ (l.map Prod.fst).Nodup ∧
      (∀ j out, (j, out) ∈ l → j ∈ sch) ∧
      (∀ n, ∃ l1 l2, l = l1 ++ l2 ∧
        (∀ j out, (j, out) ∈ commits env (sch.take n) w (calls.map (callProg P d)) → (j, out) ∈ l1) ∧
        ∀ j out, (j, out) ∈ l1 → j ∈ sch.take n) ∧
      ∀ oid, (∀ j c, calls[j]? = some c → InProgress env sch w (calls.map (callProg P d)) sch.length j →
          c.encrypts = false ∧ (c.onOid = some oid → c.replaces = false)) →
        match v' oid with
        | none => (sched env sch w (calls.map (callProg P d))).1.store oid.1 dtObject = none ∧
            (sched env sch w (calls.map (callProg P d))).1.store oid.1 dtAccess = none
        | some e => EntryAt P d (sched env sch w (calls.map (callProg P d))).1.store oid e := by
  have hidle : ∀ j, ¬ (⟨v, fun _ => none, fun _ _ => False⟩ : Locks).holds j := by
    rintro j ⟨o, h | h⟩
    · cases h
    · exact h
  obtain ⟨l, g', h1, h2, h3, h4, h5, h6⟩ := Lin.sched (R := vaultRules P d env calls (w.t + sch.length) who) sch
    (g := ⟨v, fun _ => none, fun _ _ => False⟩) (w := w) (ps := calls.map (callProg P d)) (ds := fun _ => none) (S := fun _ => False)
    (by
      refine ⟨fun oid => ⟨?_, fun _ => hR oid, (fun i h => by cases h), fun i h => h.elim⟩, fun t b h1 h2 h3 => ⟨⟨rfl, ?_⟩, (hfresh t b h1 h2 h3).2⟩⟩
      · have := hR oid
        show match v oid with
          | none => w.store oid.1 dtAccess = none
          | some e => ∃ a, AccAt P d w.store oid a ∧ ∀ x, a.groups.has x = e.members x
        cases hv : v oid with
        | none => rw [hv] at this; exact this.2
        | some e =>
          rw [hv] at this
          obtain ⟨a, ha, -, hm⟩ := this
          exact ⟨a, ha, hm⟩
      · have := hR (mkV4 b)
        show v (mkV4 b) = none
        cases hv : v (mkV4 b) with
        | none => rfl
        | some e =>
          rw [hv] at this
          obtain ⟨a, ⟨l, dek, k, n, h, -⟩, -⟩ := this
          rw [(hfresh t b h1 h2 h3).1] at h
          cases h)
    (by
      intro j p hp hpo
      rw [List.getElem?_map, Option.map_eq_some_iff] at hp
      obtain ⟨c, hc, rfl⟩ := hp
      exact lin_call L hid hf hc (hidle j) hpo)
    (fun i h => absurd h (hidle i)) (Nat.le_refl _)
    (by
      rintro n hn i j hij ⟨hi1, hi2⟩ ⟨hj1, hj2⟩ ⟨a, b, ha, hb, hc⟩
      exact hno n hn i j a b hij ha hb ⟨hi1.resolve_left id, hi2⟩ ⟨hj1.resolve_left id, hj2⟩ hc)
  refine ⟨l, g'.v, h1, h2, fun j o h => (h3 j o h).2, fun n => ?_, fun oid hq => ?_⟩
  · obtain ⟨l1, l2, h7, h8, h9⟩ := h6 n
    exact ⟨l1, l2, h7, fun j o h => (h8 j o h).resolve_right (by simp), h9⟩
  · refine (h4.at_ oid).obj fun i c hi hc => ?_
    obtain ⟨hs, hp⟩ := h5 i ⟨oid, .inl hi⟩
    have hb : InProgress env sch w (calls.map (callProg P d)) sch.length i := by
      refine ⟨?_, ?_⟩
      · rw [List.take_of_length_le (by omega)]; exact hs.resolve_left id
      · rw [List.take_length]; exact hp
    obtain ⟨q1, q2⟩ := hq i c hc hb
    refine ⟨?_, q1⟩
    obtain ⟨c', hc', h⟩ := (h4.at_ oid).own i hi
    rw [hc] at hc'
    cases hc'
    rcases h with ⟨h, -⟩ | ⟨-, h⟩
    · rw [q1] at h; cases h
    · exact q2 h

/-! ## A concrete case -/

/-- What `toyD1` tells about a token. -/
def toyTells (token : GoString) (i : Option Identity) : Prop :=
  i = if token = [] then none else some ⟨token, scopeAll, [([50], ⟨[50], scopeAll⟩)]⟩

theorem toyD1_tells : IdpTells toyD1 toyTells := by
  intro token
  simp only [toyD1]
  by_cases h : token = []
  · rw [if_pos h]
    exact ⟨trivial, by simp [AllOut, toyTells, h]⟩
  · rw [if_neg h]
    exact ⟨trivial, by simp [AllOut, toyTells, h]⟩

/-- The vault that `toyShared` represents. -/
def toyVault : Vault := fun oid =>
  if oid = nilOid then some ⟨⟨some [1], some [2]⟩, GoSet.has (some (sanList [[7], [8]]))⟩ else none

theorem toyVault_rel : Rel toyPrims toyD1 toyShared.store toyVault := by
  intro oid
  unfold toyVault
  by_cases h : oid = nilOid
  · subst h
    rw [if_pos rfl]
    exact toyShared_entry
  · rw [if_neg h]
    have h' : oid.1 ≠ nilOid.1 := fun h2 => h (Subtype.ext h2)
    simp only [toyShared]
    simp [h']

theorem toyShared_freshIds : FreshIds toyEnv toyShared.store toyShared.t (toyShared.t + 100) := by
  have key : ∀ t < 100, (mkV4 ⟨List.replicate 16 (UInt8.ofNat t), by simp⟩).1 ≠ nilOid.1 ∧
      ∀ t' < 100, t < t' → (mkV4 ⟨List.replicate 16 (UInt8.ofNat t), by simp⟩).1 ≠ (mkV4 ⟨List.replicate 16 (UInt8.ofNat t'), by simp⟩).1 := by
    decide +kernel
  intro t b h1 h2 h3
  cases h3
  obtain ⟨k1, k2⟩ := key t (by simpa [toyShared] using h2)
  refine ⟨fun dt => (if_neg fun h => k1 h.1).trans (if_neg fun h => k1 h.1), fun t' b' h4 h5 h6 h7 => ?_⟩
  cases h6
  exact k2 t' (by simpa [toyShared] using h5) h4 (congrArg Subtype.val h7)

instance {α : Type} (env : Env) (sch : List Nat) (w : World) (ps : List (Prog α)) (n i : Nat) : Decidable (InProgress env sch w ps n i) :=
  decidable_of_iff (i ∈ sch.take (n + 1) ∧ ((sched env (sch.take n) w ps).2[i]?.map fun p => p.outcome.isNone) = some true)
    (and_congr_right fun _ => by simp [Option.map_eq_some_iff])

instance (a b : Call) : Decidable (Conflict a b) :=
  decidable_of_iff (a.onOid.isSome = true ∧ b.onOid = a.onOid ∧
      (a.changes = true ∧ b.changes = true ∨ a.decrypts = true ∧ b.replaces = true ∨ a.replaces = true ∧ b.decrypts = true)) (by
    constructor
    · rintro ⟨h1, h2, h3⟩
      obtain ⟨oid, h1⟩ := Option.isSome_iff_exists.mp h1
      exact ⟨oid, h1, h2.trans h1, h3⟩
    · rintro ⟨oid, h1, h2, h3⟩
      exact ⟨by rw [h1]; rfl, h2.trans h1.symm, h3⟩)

/-- A reader, a call that adds a group, and a call that encrypts overlap; then a call that updates and one that gets the groups overlap; then
the new member decrypts. -/
def toyBusyCalls : List Call := [.decrypt [8] nilOid, .addGroups [7] nilOid [[9]], .encrypt [7] ⟨some [5], none⟩ [],
  .update [7] nilOid ⟨some [3], none⟩, .decrypt [9] nilOid, .getGroups [7] nilOid]

def toyBusySch : List Nat := [2, 0, 1, 2, 1, 0, 1, 2, 1, 2, 2, 2, 2, 2, 2, 3, 3, 3, 5, 3, 3, 3, 3, 3, 3, 4, 4]

example : NoFault toyEnv ∧ IdpTells toyD1 toyTells ∧ Rel toyPrims toyD1 toyShared.store toyVault ∧
    FreshIds toyEnv toyShared.store toyShared.t (toyShared.t + toyBusySch.length) ∧
    (∀ n, n < toyBusySch.length → ∀ i j a b, i ≠ j → toyBusyCalls[i]? = some a → toyBusyCalls[j]? = some b →
      InProgress toyEnv toyBusySch toyShared (toyBusyCalls.map (callProg toyPrims toyD1)) n i →
      InProgress toyEnv toyBusySch toyShared (toyBusyCalls.map (callProg toyPrims toyD1)) n j → ¬ Conflict a b) ∧
    Conflict (.decrypt [8] nilOid) (.update [7] nilOid ⟨some [3], none⟩) ∧
    reports toyBusySch toyBusyCalls = [(0, true), (1, true), (2, true), (5, true), (3, true), (4, true)] := by
  refine ⟨toyEnv_noFault, toyD1_tells, toyVault_rel, ?_, ?_, by decide, by decide +kernel⟩
  · intro t b h1 h2 h3
    have h2' : t < toyShared.t + 100 := Nat.lt_trans h2 (by decide)
    obtain ⟨k1, k2⟩ := toyShared_freshIds t b h1 h2' h3
    exact ⟨k1, fun t' b' h4 h5 => k2 t' b' h4 (Nat.lt_trans h5 (by decide))⟩
  · have key : ∀ i j : Fin 6, i ≠ j → Conflict (toyBusyCalls[i.1]'i.2) (toyBusyCalls[j.1]'j.2) → ∀ n < 27,
        ¬ (InProgress toyEnv toyBusySch toyShared (toyBusyCalls.map (callProg toyPrims toyD1)) n i ∧
          InProgress toyEnv toyBusySch toyShared (toyBusyCalls.map (callProg toyPrims toyD1)) n j) := by decide +kernel
    intro n hn i j a b hij ha hb h1 h2 hc
    obtain ⟨hi, rfl⟩ := List.getElem?_eq_some_iff.mp ha
    obtain ⟨hj, rfl⟩ := List.getElem?_eq_some_iff.mp hb
    exact key ⟨i, hi⟩ ⟨j, hj⟩ (fun h => hij (congrArg Fin.val h)) hc n hn ⟨h1, h2⟩

end D1
