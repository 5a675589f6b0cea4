import Mathlib.Data.List.Forall2
import Verif.Props.Blind
/-!
# Nothing but Decrypt depends on the contents: C91

Two executions of the whole library that differ only in the contents of objects: what is given to Encrypt and Update, and what the store holds
already.  They go in lock-step: all answers but those of Decrypt are the same, and all requests to the IO Provider are the same but for the bytes of
object and access records.
-/
namespace D1
open Spec Prog

/-- The calls are the same but for the contents of the object that Encrypt or Update is given. -/
def SameButContents : Call → Call → Prop
  | .encrypt t _ gs, .encrypt t' _ gs' => t = t' ∧ gs = gs'
  | .update t x _, .update t' x' _ => t = t' ∧ x = x'
  | c, c' => c = c'

/-- The calls of the whole library, likewise. -/
def ApiSameButContents : ApiCall → ApiCall → Prop
  | .d1 c, .d1 c' => SameButContents c c'
  | c, c' => c = c'

/-- What D1 reads out of the bytes of an access record. -/
def accessIn (P : Prims) (d : D1) (oid : Oid) (b : Bytes) : Except Err Access :=
  match (P.unmarshal b).bind (SealedAccess.ofJ P) with
  | none => .error .json
  | some sa => ({ sa with oid := oid } : SealedAccess).unseal P d.accessCryptor

/-- The stores hold objects under the same IDs, with the same access lists; everything else is the same. -/
structure SameLists (P : Prims) (d : D1) (st st' : Store) : Prop where
  other : ∀ x dt, dt ≠ dtObject → dt ≠ dtAccess → st x dt = st' x dt
  object : ∀ x, (st x dtObject).isSome = (st' x dtObject).isSome
  access : ∀ o : Oid, (st o.1 dtAccess).map (fun b => (accessIn P d o b).map (·.groups)) = (st' o.1 dtAccess).map fun b => (accessIn P d o b).map (·.groups)

theorem SameLists.refl {P : Prims} {d : D1} (st : Store) : SameLists P d st st := ⟨fun _ _ _ _ => rfl, fun _ => rfl, fun _ => rfl⟩

/-- The requests are the same, but for the bytes that are written to object and access records. -/
def SameRequest (e e' : Eff) : Prop :=
  e = e' ∨ ∃ x dt b b', (dt = dtObject ∨ dt = dtAccess) ∧ (e = .put x dt b ∧ e' = .put x dt b' ∨ e = .update x dt b ∧ e' = .update x dt b')

/-- The call came as far as opening the object. -/
def Opened {α : Type} : Outcome α → Prop
  | .ok _ => True
  | .err e => e = .kwp ∨ e = .aead ∨ e = .json
  | _ => False

/-- What can differ in the answers: only what Decrypt finds in the object. -/
def SameAnswer (c : ApiCall) (o o' : Outcome LibRes) : Prop := o = o' ∨ (∃ t x, c = .d1 (.decrypt t x)) ∧ Opened o ∧ Opened o'

section
variable {P : Prims} {d : D1} {i : SecureIndex} {s : Standalone} {env : Env} {lo : Nat}

/-- In step, with the same requests but for the contents. -/
abbrev Opaque (P : Prims) (d : D1) (env : Env) (lo : Nat) {α : Type} (R : Outcome α → Outcome α → Prop) (p p' : Prog α) : Prop :=
  InStep env lo (SameLists P d) (SameLists P d) SameRequest R p p'

theorem opaque_bind {α β : Type} {Q : α → α → Prop} {Q' : β → β → Prop} {p p' : Prog α} {k k' : α → Prog β} (hp : Opaque P d env lo (Same Q) p p')
    (hk : ∀ a a', Q a a' → Opaque P d env lo (Same Q') (k a) (k' a')) : Opaque P d env lo (Same Q') (p.bind k) (p'.bind k') :=
  InStep.bind hp hk (fun _ => rfl) trivial trivial

theorem aside_store {st st' : Store} {rnd : (n : Nat) → Option (BytesN n)} {clk : GoTime} {e : Eff} (he : Aside e)
    (h : SameLists P d st st') : (st.exec rnd clk e).1 = (st'.exec rnd clk e).1 ∧ SameLists P d (st.exec rnd clk e).2 (st'.exec rnd clk e).2 := by
  have same : ∀ x dt, Aside e → e.dataType = some dt → st x dt = st' x dt := by
    intro x dt he h1
    rw [Aside, h1] at he
    exact h.other x dt (fun h => he.1 (congrArg some h)) fun h => he.2 (congrArg some h)
  have set : ∀ x dt v, Aside e → e.dataType = some dt → SameLists P d (st.set x dt v) (st'.set x dt v) := by
    intro x dt v he h1
    rw [Aside, h1] at he
    refine ⟨fun y dt' h2 h3 => ?_, fun y => ?_, fun y => ?_⟩
    · simp only [Store.set]
      split
      · rfl
      · exact h.other y dt' h2 h3
    · rw [Store.set_other _ _ _ _ _ _ fun h => he.1 (congrArg some h.2.symm), Store.set_other _ _ _ _ _ _ fun h => he.1 (congrArg some h.2.symm)]
      exact h.object y
    · rw [Store.set_other _ _ _ _ _ _ fun h => he.2 (congrArg some h.2.symm), Store.set_other _ _ _ _ _ _ fun h => he.2 (congrArg some h.2.symm)]
      exact h.access y
  cases e with
  | put x dt b =>
    simp only [Store.exec, ← same x dt he rfl]
    cases st x dt with
    | none => exact ⟨rfl, set _ _ _ he rfl⟩
    | some _ => exact ⟨rfl, h⟩
  | get x dt =>
    simp only [Store.exec, ← same x dt he rfl]
    cases st x dt <;> exact ⟨rfl, h⟩
  | update x dt b =>
    simp only [Store.exec, ← same x dt he rfl]
    cases st x dt with
    | some _ => exact ⟨rfl, set _ _ _ he rfl⟩
    | none => exact ⟨rfl, h⟩
  | delete x dt => exact ⟨rfl, set _ _ _ he rfl⟩
  | rand n => exact ⟨rfl, h⟩
  | now => exact ⟨rfl, h⟩

theorem opaque_aside {α : Type} {p : Prog α} (hp : AllEff Aside p) : Opaque P d env lo (Same Eq) p p := by
  refine inStep_same (A := Aside) (fun _ _ => .inl rfl) (fun e he t st st' _ h => ?_) hp
  have := aside_store (rnd := env.rand t) (clk := env.now t) he h
  simp only [World.exec]
  cases env.fault t <;> first | exact ⟨by simp only [this.1], this.2⟩ | exact ⟨by simp only [this.1], h⟩

/-! ### Writing -/

/-- Stores stay related when related values are put in this place. -/
def Settled (P : Prims) (d : D1) (x : Bytes) (dt : DataType) (v v' : Option Bytes) : Prop :=
  ∀ st st', SameLists P d st st' → SameLists P d (st.set x dt v) (st'.set x dt v')

theorem settled_object (x : Bytes) {v v' : Option Bytes} (hv : v.isSome = v'.isSome) : Settled P d x dtObject v v' := by
  intro st st' h
  refine ⟨fun y dt h1 h2 => ?_, fun y => ?_, fun y => ?_⟩
  · rw [Store.set_other _ _ _ _ _ _ fun h => h1 h.2, Store.set_other _ _ _ _ _ _ fun h => h1 h.2]
    exact h.other y dt h1 h2
  · simp only [Store.set]
    split
    · exact hv
    · exact h.object y
  · rw [Store.set_other _ _ _ _ _ _ fun h => absurd h.2 (by decide), Store.set_other _ _ _ _ _ _ fun h => absurd h.2 (by decide)]
    exact h.access y

theorem settled_access (o : Oid) {v v' : Option Bytes}
    (hv : v.map (fun b => (accessIn P d o b).map (·.groups)) = v'.map fun b => (accessIn P d o b).map (·.groups)) : Settled P d o.1 dtAccess v v' := by
  intro st st' h
  refine ⟨fun y dt h1 h2 => ?_, fun y => ?_, fun y => ?_⟩
  · rw [Store.set_other _ _ _ _ _ _ fun h => h2 h.2, Store.set_other _ _ _ _ _ _ fun h => h2 h.2]
    exact h.other y dt h1 h2
  · rw [Store.set_other _ _ _ _ _ _ fun h => absurd h.2 (by decide), Store.set_other _ _ _ _ _ _ fun h => absurd h.2 (by decide)]
    exact h.object y
  · by_cases hy : y = o
    · subst hy
      rw [Store.set_same, Store.set_same]
      exact hv
    · rw [Store.set_other _ _ _ _ _ _ fun h => hy (Subtype.ext h.1), Store.set_other _ _ _ _ _ _ fun h => hy (Subtype.ext h.1)]
      exact h.access y

/-- A place that is empty in both stores or in neither. -/
def Alongside (P : Prims) (d : D1) (x : Bytes) (dt : DataType) : Prop := ∀ st st', SameLists P d st st' → (st x dt).isSome = (st' x dt).isSome

theorem alongside_object (x : Bytes) : Alongside P d x dtObject := fun _ _ h => h.object x
theorem alongside_access (o : Oid) : Alongside P d o.1 dtAccess := fun st st' h => by
  have := congrArg Option.isSome (h.access o)
  simpa using this

theorem opaque_put {f : IoErr → Err} {x : Bytes} {dt : DataType} {b b' : Bytes} (hdt : dt = dtObject ∨ dt = dtAccess) (hp : Alongside P d x dt)
    (hf : Settled P d x dt (some b) (some b')) : Opaque P d env lo (Same Eq) (ioPut f x dt b) (ioPut f x dt b') := by
  refine ⟨.inr ⟨x, dt, b, b', hdt, .inl ⟨rfl, rfl⟩⟩, fun t st st' _ h => ?_⟩
  have h1 := hp st st' h
  have h2 := hf st st' h
  simp only [World.exec, Store.exec]
  cases hs : st x dt <;> cases hs' : st' x dt <;> simp only [hs, hs', Option.isSome_none, Option.isSome_some, reduceCtorEq] at h1 <;> cases env.fault t <;>
    first
    | exact ⟨h2, InStep.ret (Q := Same Eq) rfl⟩
    | exact ⟨h, InStep.err (Q := Same Eq) rfl⟩
    | exact ⟨h2, InStep.err (Q := Same Eq) rfl⟩

theorem opaque_update {f : IoErr → Err} {x : Bytes} {dt : DataType} {b b' : Bytes} (hdt : dt = dtObject ∨ dt = dtAccess) (hp : Alongside P d x dt)
    (hf : Settled P d x dt (some b) (some b')) : Opaque P d env lo (Same Eq) (ioUpdate f x dt b) (ioUpdate f x dt b') := by
  refine ⟨.inr ⟨x, dt, b, b', hdt, .inr ⟨rfl, rfl⟩⟩, fun t st st' _ h => ?_⟩
  have h1 := hp st st' h
  have h2 := hf st st' h
  simp only [World.exec, Store.exec]
  cases hs : st x dt <;> cases hs' : st' x dt <;> simp only [hs, hs', Option.isSome_none, Option.isSome_some, reduceCtorEq] at h1 <;> cases env.fault t <;>
    first
    | exact ⟨h2, InStep.ret (Q := Same Eq) rfl⟩
    | exact ⟨h, InStep.err (Q := Same Eq) rfl⟩
    | exact ⟨h2, InStep.err (Q := Same Eq) rfl⟩

theorem opaque_delete {f : IoErr → Err} {x : Bytes} {dt : DataType} (hf : Settled P d x dt none none) :
    Opaque P d env lo (Same Eq) (ioDelete f x dt) (ioDelete f x dt) := by
  refine ⟨.inl rfl, fun t st st' _ h => ?_⟩
  have h2 := hf st st' h
  simp only [World.exec, Store.exec]
  cases env.fault t <;>
    first
    | exact ⟨h2, InStep.ret (Q := Same Eq) rfl⟩
    | exact ⟨h, InStep.err (Q := Same Eq) rfl⟩
    | exact ⟨h2, InStep.err (Q := Same Eq) rfl⟩

/-! ### Encryption -/

/-- Different plaintexts are encrypted in step, with the same key and the same nonce. -/
theorem opaque_encrypt (L : P.Laws) (c : Cryptor) (p p' a a' : J) : Opaque P d env lo
    (Same fun r r' => ∃ (k : BytesN 32) (n : BytesN 12), r = (kwpBox P c.kwp k.1, gcmBox P k.1 n.1 a.render p.render) ∧
      r' = (kwpBox P c.kwp k.1, gcmBox P k.1 n.1 a'.render p'.render)) (c.encrypt P p a) (c.encrypt P p' a') := by
  rw [Cryptor.encrypt_eq L, Cryptor.encrypt_eq L]
  have hr : ∀ n, Opaque P d env lo (Same Eq) (randBytes n) (randBytes n) := fun n => opaque_aside (allEff_rand (aside_rand n))
  refine opaque_bind (hr 32) ?_
  rintro k _ rfl
  refine opaque_bind (hr 12) ?_
  rintro n _ rfl
  exact InStep.ret (Q := Same _) ⟨k, n, rfl, rfl⟩

theorem accessIn_sealed (L : P.Laws) (o : Oid) (a : Access) (k : BytesN 32) (n : BytesN 12) :
    accessIn P d o (sealedAcc P d o a k n).toJ.render = .ok ⟨a.groups.map sanList, a.wrappedDEK⟩ := by
  rw [accessIn, L.unmarshal_render, Option.bind_some, SealedAccess.ofJ_toJ L]
  simp only [SealedAccess.unseal, sealedAcc, NBytes.bytes, Option.getD_some]
  rw [Cryptor.decrypt_box L, Access.ofJ_toJ]

/-- Access records with the same list. -/
theorem settled_sealed (L : P.Laws) (o : Oid) {a a' : Access} (h : a.groups = a'.groups) (k k' : BytesN 32) (n n' : BytesN 12) :
    Settled P d o.1 dtAccess (some (sealedAcc P d o a k n).toJ.render) (some (sealedAcc P d o a' k' n').toJ.render) := by
  refine settled_access o ?_
  simp only [Option.map_some, accessIn_sealed L, Except.map, h]

/-- Sealing an access list and writing it. -/
theorem opaque_putAccess (L : P.Laws) (o : Oid) {a a' : Access} (h : a.groups = a'.groups) {f f' : SealedAccess → Prog Unit}
    (hf : ∀ sa sa', Opaque P d env lo (Same Eq) (f sa) (f' sa')) (u : Bool) : Opaque P d env lo (Same Eq)
    ((a.seal P o d.accessCryptor).bind fun sa => (f sa).bind fun _ => putSealedAccess sa u)
    ((a'.seal P o d.accessCryptor).bind fun sa => (f' sa).bind fun _ => putSealedAccess sa u) := by
  rw [sealAccess_bind, sealAccess_bind]
  refine opaque_bind (opaque_encrypt L _ _ _ _ _) ?_
  rintro _ _ ⟨k, n, rfl, rfl⟩
  refine opaque_bind (hf _ _) fun _ _ _ => ?_
  cases u
  · exact opaque_put (.inr rfl) (alongside_access o) (settled_sealed L o h k k n n)
  · exact opaque_update (.inr rfl) (alongside_access o) (settled_sealed L o h k k n n)

/-- Storing a new object with its access list. -/
theorem opaque_store (L : P.Laws) (u : Oid) (a : Access) {so so' : SealedObject} (h : so.oid = u) (h' : so'.oid = u) : Opaque P d env lo (Same Eq)
    ((a.seal P u d.accessCryptor).bind fun sa => (putSealedObject so false).bind fun _ => (putSealedAccess sa false).bind fun _ => .ret u)
    ((a.seal P u d.accessCryptor).bind fun sa => (putSealedObject so' false).bind fun _ => (putSealedAccess sa false).bind fun _ => .ret u) := by
  have hput : Opaque P d env lo (Same Eq) (putSealedObject so false) (putSealedObject so' false) := by
    simp only [putSealedObject, h, h', Bool.false_eq_true, if_false]
    exact opaque_put (.inl rfl) (alongside_object _) (settled_object _ rfl)
  have key := opaque_putAccess (d := d) (env := env) (lo := lo) L u (a := a) (a' := a) rfl (f := fun _ => putSealedObject so false)
    (f' := fun _ => putSealedObject so' false) (fun _ _ => hput) false
  have := opaque_bind (k := fun _ => Prog.ret u) (k' := fun _ => Prog.ret u) (Q' := Eq) key (fun _ _ _ => InStep.ret (Q := Same Eq) rfl)
  simpa only [Prog.bind_assoc] using this

/-- Storing an object again. -/
theorem opaque_restore (L : P.Laws) (u : Oid) {a a' : Access} (hg : a.groups = a'.groups) {so so' : SealedObject} (h : so.oid = u) (h' : so'.oid = u) :
    Opaque P d env lo (Same Eq)
    ((a.seal P u d.accessCryptor).bind fun sa => (putSealedObject so true).bind fun _ => putSealedAccess sa true)
    ((a'.seal P u d.accessCryptor).bind fun sa => (putSealedObject so' true).bind fun _ => putSealedAccess sa true) := by
  have hput : Opaque P d env lo (Same Eq) (putSealedObject so true) (putSealedObject so' true) := by
    simp only [putSealedObject, h, h', if_true]
    exact opaque_update (.inl rfl) (alongside_object _) (settled_object _ rfl)
  exact opaque_putAccess (d := d) (env := env) (lo := lo) L u hg (f := fun _ => putSealedObject so true)
    (f' := fun _ => putSealedObject so' true) (fun _ _ => hput) true

/-! ### The guard -/

/-- What becomes of the access record that was read. -/
def judge (P : Prims) (d : D1) (o : Oid) (x : Identity) (sc : Scope) (b : Bytes) : Except Err Access :=
  match accessIn P d o b with
  | .error e => .error e
  | .ok a => if x.getIDs.any (fun g => a.containsGroups [g] && (x.getIDScope g).contains sc) then .ok a else .error .notAuthorized

theorem judge_same {o : Oid} {x : Identity} {sc : Scope} {b b' : Bytes}
    (h : (accessIn P d o b).map (·.groups) = (accessIn P d o b').map (·.groups)) :
    (∃ e, judge P d o x sc b = .error e ∧ judge P d o x sc b' = .error e) ∨
      ∃ a a', judge P d o x sc b = .ok a ∧ judge P d o x sc b' = .ok a' ∧ a.groups = a'.groups := by
  simp only [judge]
  cases h1 : accessIn P d o b with
  | error e =>
    cases h2 : accessIn P d o b' with
    | error e' => rw [h1, h2] at h; simp only [Except.map, Except.error.injEq] at h; exact .inl ⟨e, rfl, by rw [h]⟩
    | ok a' => rw [h1, h2] at h; simp [Except.map] at h
  | ok a =>
    cases h2 : accessIn P d o b' with
    | error e' => rw [h1, h2] at h; simp [Except.map] at h
    | ok a' =>
      rw [h1, h2] at h
      simp only [Except.map, Except.ok.injEq] at h
      have hc : ∀ g, a.containsGroups [g] = a'.containsGroups [g] := fun g => by simp only [Access.containsGroups, h]
      simp only [hc]
      split
      · exact .inr ⟨a, a', rfl, rfl, h⟩
      · exact .inl ⟨_, rfl, rfl⟩

theorem judge_eq {o : Oid} {x : Identity} {sc : Scope} {b : Bytes} : judge P d o x sc b = match (P.unmarshal b).bind (SealedAccess.ofJ P) with
    | none => .error .json
    | some sa => d.authorizeAccess P x sc { sa with oid := o } := by
  simp only [judge, accessIn, D1.authorizeAccess]
  cases (P.unmarshal b).bind (SealedAccess.ofJ P) <;> rfl

/-- Reading the access record. -/
theorem opaque_get {α : Type} {R : Outcome α → Outcome α → Prop} {o : Oid} {k k' : Except IoErr Bytes → Prog α}
    (he : ∀ e : IoErr, Opaque P d env lo R (k (.error e)) (k' (.error e)))
    (hk : ∀ b b', (accessIn P d o b).map (·.groups) = (accessIn P d o b').map (·.groups) → Opaque P d env lo R (k (.ok b)) (k' (.ok b'))) :
    Opaque P d env lo R (.op (.get o.1 dtAccess) k) (.op (.get o.1 dtAccess) k') := by
  refine ⟨.inl rfl, fun t st st' _ h => ?_⟩
  have h1 := h.access o
  simp only [World.exec, Store.exec]
  cases hs : st o.1 dtAccess <;> cases hs' : st' o.1 dtAccess <;> simp only [hs, hs', Option.map_none, Option.map_some, reduceCtorEq] at h1 <;> cases env.fault t <;>
    first
    | exact ⟨h, he _⟩
    | exact ⟨h, hk _ _ (Option.some.inj h1)⟩

/-- The guard lets through in both or in neither. -/
theorem opaque_guard (hd : ∀ t, AllEff Aside (d.idProvider t)) (t : GoString) (sc : Scope) (o : Oid) :
    Opaque P d env lo (Same fun a a' => a.groups = a'.groups) (guardProg P d t sc o) (guardProg P d t sc o) := by
  refine opaque_bind (opaque_aside (allEff_verifyAccess (hd t) sc)) ?_
  rintro x _ rfl
  have e : ((getSealedAccess P o).bind fun a => Prog.ofExcept (d.authorizeAccess P x sc a)) = .op (.get o.1 dtAccess) fun r => match r with
      | .ok b => Prog.ofExcept (judge P d o x sc b)
      | .error e => .err (onNotFound .accessNotFound e) := by
    simp only [getSealedAccess, Prog.bind_eq, ioGet, op_bind, judge_eq]
    congr 1
    funext r
    cases r with
    | error e => rfl
    | ok b => simp only [ret_bind]; cases (P.unmarshal b).bind (SealedAccess.ofJ P) <;> rfl
  rw [e]
  refine opaque_get (fun e => InStep.err (Q := Same _) rfl) fun b b' h => ?_
  rcases judge_same (x := x) (sc := sc) h with ⟨e, h1, h2⟩ | ⟨a, a', h1, h2, h3⟩
  · simp only [h1, h2]; exact InStep.err (Q := Same _) rfl
  · simp only [h1, h2]; exact InStep.ret (Q := Same _) h3

theorem decrypt_errors {α : Type} (c : Cryptor) (dec : J → Option α) (a : J) (wk ct : Bytes) {e : Err} (h : c.decrypt P dec a wk ct = .error e) :
    e = .kwp ∨ e = .aead ∨ e = .json := by
  simp only [Cryptor.decrypt] at h
  split at h
  · rename_i e' hk
    cases h
    simp only [kwpUnwrap] at hk
    repeat' split at hk
    all_goals first | (cases hk; exact .inl rfl) | (cases hk; done) | skip
    cases hk
    rename_i hi
    simp only [invertW] at hi
    split at hi <;> cases hi
    exact .inl rfl
  · split at h
    · rename_i e' hg
      cases h
      simp only [gcmDecrypt] at hg
      repeat' split at hg
      all_goals first | (cases hg; exact .inr (.inl rfl)) | cases hg
    · split at h
      · cases h; exact .inr (.inr rfl)
      · cases h

/-- What comes of opening the object. -/
theorem opened_unseal (so : SealedObject) (wk : NBytes) (c : Cryptor) : ∃ o, (Prog.ofExcept (so.unseal P wk c)).outcome = some o ∧ Opened o := by
  cases h : so.unseal P wk c with
  | ok a => exact ⟨_, rfl, trivial⟩
  | error e =>
    refine ⟨_, rfl, ?_⟩
    simp only [SealedObject.unseal] at h
    split at h
    · rename_i e' he
      cases h
      exact decrypt_errors _ _ _ _ _ he
    · cases h

/-- How Decrypt can differ. -/
def SameOrOpened {α : Type} (o o' : Outcome α) : Prop := o = o' ∨ Opened o ∧ Opened o'

theorem opaque_decrypt (hd : ∀ t, AllEff Aside (d.idProvider t)) (t : GoString) (o : Oid) :
    Opaque P d env lo SameOrOpened (d.decrypt P t o) (d.decrypt P t o) := by
  rw [decrypt_eq]
  refine InStep.bind (opaque_guard hd t scopeDecrypt o) (fun a a' _ => ?_) (fun _ => .inl rfl) (.inl rfl) (.inl rfl)
  simp only [getSealedObject, Prog.bind_eq, ioGet, op_bind]
  refine ⟨.inl rfl, fun tm st st' _ h => ?_⟩
  have h1 := h.object o.1
  have fin : ∀ b : Bytes, ∀ wk, ∃ q, (((match (P.unmarshal b).bind (SealedObject.ofJ P) with
      | none => Prog.err .json
      | some so => Prog.ret { so with oid := o }) : Prog SealedObject).bind fun so => Prog.ofExcept (so.unseal P wk d.objectCryptor)).outcome = some q ∧ Opened q := by
    intro b wk
    cases (P.unmarshal b).bind (SealedObject.ofJ P) with
    | none => exact ⟨_, rfl, .inr (.inr rfl)⟩
    | some so => exact opened_unseal _ _ _
  simp only [World.exec, Store.exec]
  cases hs : st o.1 dtObject <;> cases hs' : st' o.1 dtObject <;> simp only [hs, hs', Option.isSome_none, Option.isSome_some, reduceCtorEq] at h1 <;> cases env.fault tm <;>
    first
    | exact ⟨h, InStep.err (Q := SameOrOpened) (.inl rfl)⟩
    | (refine ⟨h, ?_⟩
       simp only [ret_bind]
       obtain ⟨q, e1, e2⟩ := fin _ a.wrappedDEK
       obtain ⟨q', e1', e2'⟩ := fin _ a'.wrappedDEK
       exact InStep.ended e1 e1' (.inr ⟨e2, e2'⟩))

theorem opaque_encryptCall (L : P.Laws) (hd : ∀ t, AllEff Aside (d.idProvider t)) (t : GoString) (o o' : Object) (gs : List GoString) :
    Opaque P d env lo (Same Eq) (d.encrypt P t o gs) (d.encrypt P t o' gs) := by
  refine opaque_bind (opaque_aside (allEff_verifyAccess (hd t) _)) ?_
  rintro x _ rfl
  refine opaque_bind (opaque_aside (allEff_newV4 aside_rand)) ?_
  rintro u _ rfl
  simp only [Prog.bind_eq, sealObject_bind]
  refine opaque_bind (opaque_encrypt L _ _ _ _ _) ?_
  rintro _ _ ⟨k, n, rfl, rfl⟩
  refine opaque_bind (opaque_aside (allEff_ofPanic _)) ?_
  rintro a _ rfl
  exact opaque_store L u a rfl rfl

theorem opaque_updateCall (L : P.Laws) (hd : ∀ t, AllEff Aside (d.idProvider t)) (t : GoString) (o : Oid) (ob ob' : Object) :
    Opaque P d env lo (Same Eq) (d.update P t o ob) (d.update P t o ob') := by
  rw [update_eq, update_eq]
  refine opaque_bind (opaque_guard hd t _ o) fun a a' h => ?_
  rw [sealObject_bind, sealObject_bind]
  refine opaque_bind (opaque_encrypt L _ _ _ _ _) ?_
  rintro _ _ ⟨k, n, rfl, rfl⟩
  simp only
  generalize kwpBox P d.objectCryptor.kwp k.1 = y
  generalize gcmBox P k.1 n.1 _ _ = z
  generalize gcmBox P k.1 n.1 _ _ = z'
  refine opaque_restore L o ?_ ?_ ?_
  · exact h
  · rfl
  · rfl

/-- The other calls of D1. -/
theorem opaque_call (L : P.Laws) (hd : ∀ t, AllEff Aside (d.idProvider t)) {c c' : Call} (hc : SameButContents c c') (hnd : ∀ t o, c ≠ .decrypt t o) :
    Opaque P d env lo (Same Eq) (callProg P d c) (callProg P d c') := by
  have fin : ∀ {α β : Type} {p p' : Prog α} (f : α → β), Opaque P d env lo (Same Eq) p p' → Opaque P d env lo (Same Eq) (p.bind fun r => .ret (f r)) (p'.bind fun r => .ret (f r)) :=
    fun f h => opaque_bind h fun a a' e => by subst e; exact InStep.ret (Q := Same Eq) rfl
  cases c with
  | encrypt t o gs =>
    cases c' with
    | encrypt t' o' gs' =>
      obtain ⟨rfl, rfl⟩ := hc
      refine fin _ ?_
      exact opaque_encryptCall L hd t o o' gs
    | _ => cases hc
  | update t o ob =>
    cases c' with
    | update t' o' ob' =>
      obtain ⟨rfl, rfl⟩ := hc
      refine fin _ ?_
      exact opaque_updateCall L hd t o ob ob'
    | _ => cases hc
  | decrypt t o => exact absurd rfl (hnd t o)
  | delete t o =>
    cases c' <;> cases hc
    refine fin _ ?_
    refine opaque_bind (opaque_aside (allEff_verifyAccess (hd t) _)) ?_
    rintro x _ rfl
    simp only [getSealedAccess, Prog.bind_eq, ioGet, op_bind]
    refine opaque_get (fun e => ?_) fun b b' h => ?_
    · cases e <;> first | exact InStep.ret (Q := Same Eq) rfl | exact InStep.err (Q := Same Eq) rfl
    · have hj := judge_same (x := x) (sc := scopeDelete) h
      simp only [judge_eq] at hj
      simp only [ret_bind, Prog.pure_eq]
      have fail : ∀ (sa : SealedAccess) (e : Err), d.authorizeAccess P x scopeDelete sa = .error e →
          ((Prog.ofExcept (d.authorizeAccess P x scopeDelete sa)).bind fun _ => (deleteSealedObject o).bind fun _ => deleteSealedAccess o) = .err e := by
        intro sa e h; rw [h]; rfl
      cases hb : (P.unmarshal b).bind (SealedAccess.ofJ P) <;> cases hb' : (P.unmarshal b').bind (SealedAccess.ofJ P) <;>
        simp only [hb, hb', Prog.attempt, Except.error.injEq, reduceCtorEq, false_and, and_false, exists_false, or_false, exists_eq_left'] at hj ⊢
      · exact InStep.err (Q := Same _) rfl
      · rw [fail _ _ hj]; exact InStep.err (Q := Same _) rfl
      · obtain ⟨e, h1, rfl⟩ := hj
        rw [fail _ _ h1]; exact InStep.err (Q := Same _) rfl
      · rcases hj with ⟨e, h1, h2⟩ | ⟨a, a', h1, h2, h3⟩
        · rw [fail _ _ h1, fail _ _ h2]; exact InStep.err (Q := Same _) rfl
        · rw [h1, h2]
          simp only [Prog.ofExcept, ret_bind]
          exact opaque_bind (opaque_delete (settled_object _ rfl)) fun _ _ _ => opaque_delete (settled_access o rfl)
  | getGroups t o =>
    cases c' <;> cases hc
    refine fin _ ?_
    rw [getAccessGroups_eq]
    exact opaque_bind (opaque_guard hd t _ o) fun a a' h => InStep.ret (Q := Same Eq) h
  | authorize t o =>
    cases c' <;> cases hc
    refine fin _ ?_
    rw [authorizeIdentity_eq]
    exact opaque_bind (opaque_guard hd t _ o) fun a a' h => InStep.ret (Q := Same Eq) rfl
  | addGroups t o gs =>
    cases c' <;> cases hc
    refine fin _ ?_
    rw [addGroupsToAccess_eq]
    refine opaque_bind (opaque_guard hd t _ o) fun a a' h => ?_
    simp only [Access.addGroups, ← h]
    cases addToSet a.groups gs with
    | none => exact InStep.ended rfl rfl trivial
    | some l => exact opaque_putAccess L o (a := { a with groups := l }) (a' := { a' with groups := l }) rfl (f := fun _ => .ret ()) (f' := fun _ => .ret ()) (fun _ _ => InStep.ret (Q := Same Eq) rfl) true
  | removeGroups t o gs =>
    cases c' <;> cases hc
    refine fin _ ?_
    rw [removeGroupsFromAccess_eq]
    refine opaque_bind (opaque_guard hd t _ o) fun a a' h => ?_
    exact opaque_putAccess L o (a := a.removeGroups gs) (a' := a'.removeGroups gs) (by simp only [Access.removeGroups, h]) (f := fun _ => .ret ()) (f' := fun _ => .ret ()) (fun _ _ => InStep.ret (Q := Same Eq) rfl) true

/-- C91.  Two stores hold objects under the same IDs with the same access lists, and are otherwise the same; two lists of calls of the whole library differ only
in the contents of the objects given to Encrypt and Update.  Under the same schedule, with the same draws, clock and IO failures, the same calls end in the same order, with the
same answers, except that two calls of Decrypt that come as far as opening the object may find different contents; and the requests to the IO Provider
are the same but for the bytes of object and access records. -/
theorem C91_contents (L : P.Laws) (hd : ∀ t, AllEff Aside (d.idProvider t)) (hi : i.idProvider = s.getIdentity P) {st st' : Store} {t : Nat} (h0 : SameLists P d st st')
    {calls calls' : List ApiCall} (hc : List.Forall₂ ApiSameButContents calls calls') (sch : List Nat) :
    List.Forall₂ (fun x y => x.1 = y.1 ∧ ∃ c, calls[x.1]? = some c ∧ SameAnswer c x.2 y.2) (commits env sch ⟨st, t⟩ (calls.map (answerProg P d i s)))
      (commits env sch ⟨st', t⟩ (calls'.map (answerProg P d i s))) ∧
    List.Forall₂ (fun x y => x.1 = y.1 ∧ SameRequest x.2 y.2) (performed env sch ⟨st, t⟩ (calls.map (answerProg P d i s)))
      (performed env sch ⟨st', t⟩ (calls'.map (answerProg P d i s))) ∧
    SameLists P d (sched env sch ⟨st, t⟩ (calls.map (answerProg P d i s))).1.store (sched env sch ⟨st', t⟩ (calls'.map (answerProg P d i s))).1.store := by
  have key := InStep.sched (env := env) (lo := t) (H := SameLists P d) (E := SameRequest) (R := fun j o o' => ∃ c, calls[j]? = some c ∧ SameAnswer c o o')
    sch (w := ⟨st, t⟩) (w' := ⟨st', t⟩) (ps := calls.map (answerProg P d i s)) (ps' := calls'.map (answerProg P d i s))
    le_rfl rfl h0 (by simp [hc.length_eq]) fun j p p' hp hp' => by
      rw [List.getElem?_map, Option.map_eq_some_iff] at hp hp'
      obtain ⟨c, hj, rfl⟩ := hp
      obtain ⟨c', hj', rfl⟩ := hp'
      have hcc : ApiSameButContents c c' := by
        obtain ⟨h1, h2⟩ := List.forall₂_iff_get.mp hc
        obtain ⟨l1, e1⟩ := List.getElem?_eq_some_iff.mp hj
        obtain ⟨l2, e2⟩ := List.getElem?_eq_some_iff.mp hj'
        have := h2 j l1 l2
        simp only [List.get_eq_getElem, e1, e2] at this
        exact this
      have weaken : ∀ {q q' : Prog LibRes}, Opaque P d env t (Same Eq) q q' → Opaque P d env t (fun o o' => ∃ c, calls[j]? = some c ∧ SameAnswer c o o') q q' :=
        fun h => h.mono fun o o' hs => ⟨c, hj, .inl (same_eq hs)⟩
      cases c with
      | d1 c =>
        cases c' with
        | d1 c' =>
          by_cases hnd : ∃ tk o, c = .decrypt tk o
          · obtain ⟨tk, o, rfl⟩ := hnd
            cases c' <;> cases hcc
            have := opaque_decrypt (P := P) (env := env) (lo := t) hd tk o
            refine InStep.mono (R := SameOrOpened) (fun q q' hs => ⟨_, hj, hs.imp id fun h => ⟨⟨tk, o, rfl⟩, h⟩⟩) ?_
            simp only [answerProg, callProg, Prog.bind_assoc, ret_bind]
            revert this
            generalize d.decrypt P tk o = q
            intro hq
            have map : ∀ q q' : Prog Object, Opaque P d env t SameOrOpened q q' → Opaque P d env t SameOrOpened (q.bind fun r => Prog.ret (LibRes.d1 (.object r))) (q'.bind fun r => Prog.ret (LibRes.d1 (.object r))) := by
              intro q
              induction q with
              | op e k ih =>
                intro q' h
                obtain ⟨e', k', rfl⟩ := h.of_op
                exact ⟨h.1, fun t st st' h1 h2 => ⟨(h.2 t st st' h1 h2).1, ih _ _ (h.2 t st st' h1 h2).2⟩⟩
              | _ =>
                intro q' h
                obtain ⟨o', h1, h2⟩ := h.of_outcome rfl
                cases q' <;> simp only [Prog.outcome, Option.some.injEq, reduceCtorEq] at h1 <;> subst h1 <;> refine InStep.ended rfl rfl ?_ <;>
                  rcases h2 with h2 | ⟨h2, h3⟩ <;> first | (cases h2; exact .inl rfl) | exact .inr ⟨h2, h3⟩ | cases h2
            exact map q q hq
          · refine weaken ?_
            exact opaque_bind (opaque_call L hd hcc fun tk o h => hnd ⟨tk, o, h⟩) fun a a' e => by subst e; exact InStep.ret (Q := Same Eq) rfl
        | _ => cases hcc
      | _ => cases c' <;> cases hcc <;> exact weaken (opaque_aside (aside_answer hi (by simp)))
  exact ⟨key.2.1, key.2.2, key.1⟩

/-- C91 for one store: calls that differ only in the contents given to Encrypt and Update, and none of which is Decrypt, have the same answers. -/
theorem C91_inputs (L : P.Laws) (hd : d.idProvider = s.getIdentity P) (hi : i.idProvider = s.getIdentity P) {w : World}
    {calls calls' : List ApiCall} (hc : List.Forall₂ ApiSameButContents calls calls') (hn : ∀ t o, .d1 (.decrypt t o) ∉ calls) (sch : List Nat) :
    commits env sch w (calls.map (answerProg P d i s)) = commits env sch w (calls'.map (answerProg P d i s)) := by
  obtain ⟨h1, -, -⟩ := C91_contents (env := env) (t := w.t) L (fun t => hd ▸ aside_identity t) hi (SameLists.refl w.store) hc sch
  have key : ∀ {l l' : List (Nat × Outcome LibRes)}, List.Forall₂ (fun x y => x.1 = y.1 ∧ ∃ c, calls[x.1]? = some c ∧ SameAnswer c x.2 y.2) l l' → l = l' := by
    intro l l' h
    induction h with
    | nil => rfl
    | cons h _ ih =>
      obtain ⟨e1, c, hj, hs⟩ := h
      rcases hs with hs | ⟨⟨t, o, rfl⟩, -⟩
      · rw [ih, Prod.ext e1 hs]
      · exact absurd (List.mem_of_getElem? hj) (hn t o)
  exact key h1

/-- Stores that differ in the contents of an object (`C90_insider`: those on the list read the difference). -/
theorem C91_case (L : P.Laws) (o o' : Object) (l : List GoString) : SameLists P d (secretStore P d s o l) (secretStore P d s o' l) := by
  have h := settled_object (P := P) (d := d) raceOid.1 (v := some (sealedObj P raceOid o raceKey raceNonce).toJ.render)
    (v' := some (sealedObj P raceOid o' raceKey raceNonce).toJ.render) rfl (raceStore P d s) (raceStore P d s) (SameLists.refl _)
  exact settled_sealed L raceOid rfl _ _ _ _ _ _ h

end
end D1
