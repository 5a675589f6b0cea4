import Verif.Proofs.D1Run
import Verif.Proofs.Instance
/-!
# Sequential properties of D1: C01, C02, C06, C15, C16, C17, C18
-/
namespace D1
open Spec

/-! ## Histories of calls -/

/-- Run calls one after the other and collect what the callers see. -/
def codeHist (P : Prims) (d : D1) (env : Env) : World → List Call → List (Outcome Res)
  | _, [] => []
  | w, c :: r => ((callProg P d c).run env w).1 :: codeHist P d env ((callProg P d c).run env w).2 r

/-- The world after a list of calls. -/
def codeAfter (P : Prims) (d : D1) (env : Env) : World → List Call → World
  | w, [] => w
  | w, c :: r => codeAfter P d env ((callProg P d c).run env w).2 r

/-- What the Identity Provider said and which ID would be drawn, at each call. -/
def annotate (P : Prims) (d : D1) (env : Env) : World → List Call → List ((Option Identity × Oid) × Call)
  | _, [] => []
  | w, c :: r => ((whoIs d env w c.token, freshOid d env w c.token), c) ::
      annotate P d env ((callProg P d c).run env w).2 r

/-- The vault after a list of calls. -/
def specAfter (norm : GoString → GoString) : Vault → List ((Option Identity × Oid) × Call) → Vault
  | v, [] => v
  | v, ((who, fresh), c) :: r => specAfter norm (step norm v who fresh c).2 r

/-- The empty vault. -/
def emptyVault : Vault := fun _ => none

/-! A small concrete setting for the examples: one identity provider that knows everybody as `[1]` with all scopes. -/

def toyEnv : Env := ⟨fun t n => some ⟨List.replicate n (UInt8.ofNat t), by simp⟩, fun t => ⟨t, 0⟩, fun _ => .none⟩
def toyD1 : D1 := ⟨fun token => if token = [] then .err .idNotAuthenticated else .ret ⟨token, scopeAll, [([50], ⟨[50], scopeAll⟩)]⟩,
  ⟨List.replicate 32 1⟩, ⟨List.replicate 32 2⟩, ⟨List.replicate 32 3⟩⟩

theorem toyEnv_noFault : NoFault toyEnv := fun _ => rfl
theorem toyEnv_randOk : RandOk toyEnv := fun _ _ => rfl
theorem toyD1_idpOk (env : Env) : IdpOk toyD1 env := by
  intro token w
  simp only [toyD1]
  split
  · exact ⟨fun _ => ⟨rfl, rfl⟩, .inr ⟨_, rfl⟩⟩
  · exact ⟨fun _ => ⟨rfl, rfl⟩, .inl ⟨_, rfl, by simp⟩⟩

section
variable {P : Prims} (L : P.Laws) {env : Env}

/-! ## C02 -/

/-- A store without objects and access records is an empty vault. -/
theorem rel_empty (P : Prims) (d : D1) (s : Store) (h : ∀ id, s id dtObject = none ∧ s id dtAccess = none) :
    Rel P d s emptyVault := fun oid => h oid.1

theorem annotate_calls (d : D1) (w : World) (calls : List Call) : (annotate P d env w calls).map Prod.snd = calls := by
  induction calls generalizing w with
  | nil => rfl
  | cons c r ih => simp [annotate, ih]

include L in
/-- C02: the results of every sequence of calls are those of the vault, in which IDs are recorded as valid UTF-8 (every
bad byte replaced by U+FFFD), and the relation between store and vault is preserved. -/
theorem C02_refines (hf : NoFault env) (hr : RandOk env) {d : D1} (hid : IdpOk d env) (calls : List Call) (w : World)
    (v : Vault) (hR : Rel P d w.store v) :
    codeHist P d env w calls = (hist sanitize v (annotate P d env w calls)).map toOutcome ∧
      Rel P d (codeAfter P d env w calls).store (specAfter sanitize v (annotate P d env w calls)) := by
  induction calls generalizing w v with
  | nil => exact ⟨rfl, hR⟩
  | cons c r ih =>
    obtain ⟨w', h1, h2⟩ := run_call L hf hr hid hR c
    simp only [codeHist, annotate, hist, codeAfter, specAfter, List.map_cons, h1]
    exact ⟨by rw [(ih w' _ h2).1], (ih w' _ h2).2⟩

/-- Every ID that the call records is valid UTF-8. -/
def PlainIds (a : (Option Identity × Oid) × Call) : Prop := match a with
  | ((who, _), .encrypt _ _ gs) => (∀ g ∈ gs, validUtf8 g = true) ∧ ∀ i, who = some i → validUtf8 i.id = true
  | (_, .addGroups _ _ gs) => ∀ g ∈ gs, validUtf8 g = true
  | _ => True

theorem any_sanitize (gs : List GoString) (h : ∀ g ∈ gs, validUtf8 g = true) (x : GoString) :
    (gs.any fun g => sanitize g == x) = gs.any fun g => id g == x := by
  induction gs with
  | nil => rfl
  | cons g gs ih => simp [sanitize_of_valid (h g (by simp)), ih (fun g hg => h g (by simp [hg]))]

theorem step_plain (v : Vault) (who : Option Identity) (fresh : Oid) (c : Call) (h : PlainIds ((who, fresh), c)) :
    step sanitize v who fresh c = step id v who fresh c := by
  cases c with
  | encrypt t o gs =>
    simp only [step]
    cases hauth : authenticate who scopeEncrypt with
    | error e => rfl
    | ok i =>
      have hi : who = some i := by
        simp only [authenticate] at hauth
        split at hauth; · cases hauth
        split at hauth
        · cases hauth; rfl
        · cases hauth
      simp only
      cases v fresh with
      | some _ => rfl
      | none =>
        have : (fun x => (gs ++ [i.id]).any fun g => sanitize g == x) = fun x => (gs ++ [i.id]).any fun g => id g == x := by
          funext x
          apply any_sanitize
          intro g hg
          simp only [List.mem_append, List.mem_singleton] at hg
          rcases hg with hg | rfl
          · exact h.1 g hg
          · exact h.2 i hi
        simp only [this]
  | addGroups t oid gs =>
    have : (fun (e : Entry) (x : GoString) => e.members x || gs.any fun g => sanitize g == x) =
        fun e x => e.members x || gs.any fun g => id g == x := by
      funext e x; rw [any_sanitize gs h]
    simp only [step]
    have h2 := fun e => congrFun this e
    simp only [h2]
  | _ => rfl

theorem hist_plain (v : Vault) (as : List ((Option Identity × Oid) × Call)) (h : ∀ a ∈ as, PlainIds a) :
    hist sanitize v as = hist id v as := by
  induction as generalizing v with
  | nil => rfl
  | cons a r ih =>
    obtain ⟨⟨who, fresh⟩, c⟩ := a
    simp only [hist, step_plain v who fresh c (h _ (by simp))]
    rw [ih _ (fun a ha => h a (by simp [ha]))]

include L in
/-- C02, the intended reading: when all recorded IDs are valid UTF-8 the vault records them as they are. -/
theorem C02_plain_map (hf : NoFault env) (hr : RandOk env) {d : D1} (hid : IdpOk d env) (calls : List Call) (w : World)
    (hempty : ∀ id, w.store id dtObject = none ∧ w.store id dtAccess = none)
    (hplain : ∀ a ∈ annotate P d env w calls, PlainIds a) :
    codeHist P d env w calls = (hist id emptyVault (annotate P d env w calls)).map toOutcome := by
  rw [(C02_refines L hf hr hid calls w emptyVault (rel_empty P d _ hempty)).1, hist_plain _ _ hplain]

/-- The hypotheses hold in the concrete setting, with a history in which an object is made, shared, read and deleted. -/
example : NoFault toyEnv ∧ RandOk toyEnv ∧ IdpOk toyD1 toyEnv ∧ toyPrims.Laws :=
  ⟨toyEnv_noFault, toyEnv_randOk, toyD1_idpOk _, toyLaws⟩

/-! ## C01 -/

include L in
/-- What a successful `Encrypt` leaves in the store, in any environment (faults included) and over any prior store. -/
theorem encrypt_stored {d : D1} {token : GoString} {o : Object} {gs : List GoString} {w w1 : World} {oid : Oid}
    (h : (d.encrypt P token o gs).run env w = (.ok oid, w1)) :
    ∃ i wi, (d.idProvider token).run env w = (.ok i, wi) ∧ i.scopes.contains scopeEncrypt = true ∧
      ∃ a, AccAt P d w1.store oid a ∧ ObjAt P d w1.store oid o a.wrappedDEK ∧
        ∀ x, a.groups.has x = (gs ++ [i.id]).any fun g => sanitize g == x := by
  simp only [D1.encrypt, Prog.bind_eq] at h
  obtain ⟨i, wi, h1, h⟩ := (Prog.run_bind_ok_iff env).mp h
  obtain ⟨oid', w2, h2, h⟩ := (Prog.run_bind_ok_iff env).mp h
  obtain ⟨⟨wd, so⟩, w3, h3, h⟩ := (Prog.run_bind_ok_iff env).mp h
  obtain ⟨a, w4, h4, h⟩ := (Prog.run_bind_ok_iff env).mp h
  obtain ⟨sa, w5, h5, h⟩ := (Prog.run_bind_ok_iff env).mp h
  obtain ⟨_, w6, h6, h⟩ := (Prog.run_bind_ok_iff env).mp h
  obtain ⟨_, w7, h7, h⟩ := (Prog.run_bind_ok_iff env).mp h
  simp only [Prog.pure_eq, Prog.run_ret, Prod.mk.injEq, Outcome.ok.injEq] at h
  obtain ⟨rfl, rfl⟩ := h
  have hid : (d.idProvider token).run env w = (.ok i, wi) ∧ i.scopes.contains scopeEncrypt = true := by
    rw [D1.verifyAccess, Prog.run_attempt] at h1
    cases hrun : (d.idProvider token).run env w with
    | mk out w' =>
      rw [hrun] at h1
      cases out with
      | ok j =>
        simp only at h1
        split at h1
        · simp at h1
        · rename_i hc
          simp only [Prog.run_ret, Prod.mk.injEq, Outcome.ok.injEq] at h1
          obtain ⟨rfl, rfl⟩ := h1
          exact ⟨rfl, by simpa using hc⟩
      | _ => simp at h1
  refine ⟨i, wi, hid.1, hid.2, ?_⟩
  simp only [Object.seal, Prog.bind_eq] at h3
  obtain ⟨r, w3', h3, h3'⟩ := (Prog.run_bind_ok_iff env).mp h3
  obtain ⟨k, n, rfl, rfl⟩ := Cryptor.run_encrypt_ok L h3
  simp only [Prog.pure_eq, Prog.run_ret, Prod.mk.injEq, Outcome.ok.injEq] at h3'
  obtain ⟨⟨rfl, rfl⟩, rfl⟩ := h3'
  simp only [Access.addGroups, newAccess, addToSet_some, Option.map_some, Prog.ofPanic_some, Prog.run_ret, Prod.mk.injEq,
    Outcome.ok.injEq] at h4
  obtain ⟨rfl, rfl⟩ := h4
  simp only [Access.seal, Prog.bind_eq] at h5
  obtain ⟨r, w5', h5, h5'⟩ := (Prog.run_bind_ok_iff env).mp h5
  obtain ⟨ak, an, rfl, rfl⟩ := Cryptor.run_encrypt_ok L h5
  simp only [Prog.pure_eq, Prog.run_ret, Prod.mk.injEq, Outcome.ok.injEq] at h5'
  obtain ⟨rfl, rfl⟩ := h5'
  obtain ⟨_, rfl⟩ := run_ioPut_ok h6
  obtain ⟨_, rfl⟩ := run_ioPut_ok h7
  refine ⟨_, ⟨_, _, ak, an, Store.set_same _ _ _ _, rfl⟩, ⟨k, n, ?_, rfl⟩, ?_⟩
  · simp only
    rw [Store.set_other _ _ _ _ _ _ (by simp [dtAccess, dtObject])]
    exact Store.set_same _ _ _ _
  · intro x
    rw [has_sanList, Bool.eq_iff_iff]
    simp only [List.any_eq_true, mem_foldl_setInsert, List.not_mem_nil, false_or]

include L in
/-- C01: after a successful `Encrypt` over any prior store and with any faults, a `Decrypt` by anybody who was granted
access returns the object exactly as it was passed in (nil and empty slices included).  `x` is the ID of the reader that was
granted access: it is one of the given groups or the creator's ID, as recorded. -/
theorem C01_encrypt_decrypt {d : D1} {token : GoString} {o : Object} {gs : List GoString} {w w1 : World} {oid : Oid}
    (henc : (d.encrypt P token o gs).run env w = (.ok oid, w1))
    {env' : Env} (hf : NoFault env') {w2 : World} (hsame : SameObjects w1.store w2.store)
    {token' : GoString} {reader : Identity} {w3 : World} (hread : (d.idProvider token').run env' w2 = (.ok reader, w3))
    (hsame' : SameObjects w2.store w3.store)
    (hscope : reader.scopes.contains scopeDecrypt = true)
    {x : GoString} (hx : x ∈ reader.getIDs) (hxs : (reader.getIDScope x).contains scopeDecrypt = true)
    (hgrant : x ∈ gs.map sanitize ∨ ∃ creator wi, (d.idProvider token).run env w = (.ok creator, wi) ∧ x = sanitize creator.id) :
    ∃ w4, (d.decrypt P token' oid).run env' w2 = (.ok o, w4) := by
  obtain ⟨i, wi, hi, _, a, ha, ho, hm⟩ := encrypt_stored L henc
  have ha3 : AccAt P d w3.store oid a := (ha.congr (hsame oid.1).2).congr (hsame' oid.1).2
  have ho3 : ObjAt P d w3.store oid o a.wrappedDEK := (ho.congr (hsame oid.1).1).congr (hsame' oid.1).1
  have hv : (d.verifyAccess token' scopeDecrypt).run env' w2 = (.ok reader, w3) := by
    rw [D1.verifyAccess, Prog.run_attempt_ok env' hread]
    simp [hscope]
  obtain ⟨sa, hsa, hun⟩ := run_getSealedAccess L hf (env := env') ha3
  have hauth : d.authorizeAccess P reader scopeDecrypt sa = .ok a := by
    rw [D1.authorizeAccess, hun]
    simp only
    rw [if_pos]
    rw [List.any_eq_true]
    refine ⟨x, hx, ?_⟩
    simp only [Access.containsGroups, List.all_cons, List.all_nil, Bool.and_true, Bool.and_eq_true]
    refine ⟨?_, hxs⟩
    rw [hm, List.any_eq_true]
    rcases hgrant with hg | ⟨cr, wi', hcr, rfl⟩
    · obtain ⟨g, hgm, rfl⟩ := List.mem_map.mp hg
      exact ⟨g, List.mem_append_left _ hgm, by simp⟩
    · rw [hi] at hcr
      simp only [Prod.mk.injEq, Outcome.ok.injEq] at hcr
      obtain ⟨rfl, _⟩ := hcr
      exact ⟨i.id, List.mem_append_right _ (List.mem_singleton.mpr rfl), by simp⟩
  have ho4 : ObjAt P d (w3.next w3.store).store oid o a.wrappedDEK := ho3
  obtain ⟨so, hso, hou⟩ := run_getSealedObject L hf (env := env') ho4
  refine ⟨(w3.next w3.store).next w3.store, ?_⟩
  simp only [D1.decrypt, Prog.bind_eq]
  rw [Prog.run_bind_ok env' hv, Prog.run_bind_ok env' hsa, hauth, Prog.ofExcept_ok, Prog.ret_bind, Prog.run_bind_ok env' hso, hou]
  rfl

/-- The hypotheses hold: in the concrete setting `Encrypt` succeeds for any object, and the creator is granted access. -/
example (o : Object) : ∃ oid w1, (toyD1.encrypt toyPrims [7] o [[8]]).run toyEnv ⟨fun _ _ => none, 0⟩ = (.ok oid, w1) := by
  obtain ⟨w', h, _⟩ := run_call toyLaws toyEnv_noFault toyEnv_randOk (toyD1_idpOk _)
    (rel_empty toyPrims toyD1 (fun _ _ => none) (fun _ => ⟨rfl, rfl⟩)) (w := ⟨fun _ _ => none, 0⟩) (.encrypt [7] o [[8]])
  have hs : ∀ f, (step sanitize emptyVault (whoIs toyD1 toyEnv ⟨fun _ _ => none, 0⟩ [7]) f (.encrypt [7] o [[8]])).1 =
      .ok (.oid f) := by
    intro f
    have hw : whoIs toyD1 toyEnv ⟨fun _ _ => none, 0⟩ [7] = some ⟨[7], scopeAll, [([50], ⟨[50], scopeAll⟩)]⟩ := rfl
    have ha : authenticate (some ⟨[7], scopeAll, [([50], ⟨[50], scopeAll⟩)]⟩) scopeEncrypt =
        .ok ⟨[7], scopeAll, [([50], ⟨[50], scopeAll⟩)]⟩ := by
      simp only [authenticate]; rw [if_pos (by decide)]
    simp only [step, hw, ha, emptyVault]
  simp only [Call.token] at h
  rw [hs] at h
  simp only [callProg, toOutcome] at h
  obtain ⟨oid, w1, h1, h2⟩ := (Prog.run_bind_ok_iff toyEnv).mp h
  exact ⟨oid, w1, h1⟩

/-! ## C06 -/

/-- C06: exactly when a caller is authorized. -/
theorem C06_decision {d : D1} (i : Identity) (hn : (i.groups.map Prod.fst).Nodup) (s : Scope) (sa : SealedAccess) (a : Access) :
    d.authorizeAccess P i s sa = .ok a ↔ sa.unseal P d.accessCryptor = .ok a ∧
      ((a.groups.has i.id = true ∧ i.scopes.contains s = true) ∨
        ∃ x g, (x, g) ∈ i.groups ∧ x ≠ i.id ∧ a.groups.has x = true ∧ g.scopes.contains s = true) := by
  rw [D1.authorizeAccess]
  cases h : sa.unseal P d.accessCryptor with
  | error e => simp
  | ok b =>
    simp only
    rw [allowed_eq i hn s b b.groups.has (fun _ => rfl)]
    simp only [allowed, scopeIn_eq]
    constructor
    · intro h1
      split at h1
      · rename_i hc
        cases h1
        refine ⟨rfl, ?_⟩
        simp only [Bool.or_eq_true, Bool.and_eq_true, List.any_eq_true, bne_iff_ne, ne_eq] at hc
        rcases hc with hc | ⟨⟨x, g⟩, hg, ⟨h1, h2⟩, h3⟩
        · exact .inl hc
        · exact .inr ⟨x, g, hg, h1, h2, h3⟩
      · cases h1
    · rintro ⟨h1, h2⟩
      cases h1
      rw [if_pos]
      simp only [Bool.or_eq_true, Bool.and_eq_true, List.any_eq_true, bne_iff_ne, ne_eq]
      rcases h2 with h2 | ⟨x, g, hg, h1, h2, h3⟩
      · exact .inl h2
      · exact .inr ⟨(x, g), hg, ⟨h1, h2⟩, h3⟩

/-- C06: the order in which the caller's group map is visited does not matter. -/
theorem C06_order {d : D1} (i j : Identity) (hn : (i.groups.map Prod.fst).Nodup) (hid : j.id = i.id)
    (hs : j.scopes = i.scopes) (hp : j.groups.Perm i.groups) (s : Scope) (sa : SealedAccess) :
    d.authorizeAccess P j s sa = d.authorizeAccess P i s sa := by
  have hnj : (j.groups.map Prod.fst).Nodup := (hp.map Prod.fst).nodup_iff.mpr hn
  simp only [D1.authorizeAccess]
  cases sa.unseal P d.accessCryptor with
  | error e => rfl
  | ok a =>
    simp only
    rw [allowed_eq i hn s a a.groups.has (fun _ => rfl), allowed_eq j hnj s a a.groups.has (fun _ => rfl)]
    have : allowed j s a.groups.has = allowed i s a.groups.has := by
      simp only [allowed, hid, hs]
      congr 1
      rw [Bool.eq_iff_iff]
      simp only [List.any_eq_true]
      constructor
      · rintro ⟨g, hg, h⟩; exact ⟨g, hp.mem_iff.mp hg, h⟩
      · rintro ⟨g, hg, h⟩; exact ⟨g, hp.mem_iff.mpr hg, h⟩
    rw [this]

/-- C06: neither does the order in which `GetIDs` is visited. -/
theorem C06_visit_order (i : Identity) (ids : List GoString) (hp : ids.Perm i.getIDs) (s : Scope) (a : Access) :
    (ids.any fun gid => a.containsGroups [gid] && (i.getIDScope gid).contains s) =
      i.getIDs.any fun gid => a.containsGroups [gid] && (i.getIDScope gid).contains s := by
  rw [Bool.eq_iff_iff]
  simp only [List.any_eq_true]
  constructor
  · rintro ⟨g, hg, h⟩; exact ⟨g, hp.mem_iff.mp hg, h⟩
  · rintro ⟨g, hg, h⟩; exact ⟨g, hp.mem_iff.mpr hg, h⟩

example : ([([2], ⟨[2], 4⟩), ([3], ⟨[3], 2⟩)] : List (GoString × AccessGroup)).Perm [([3], ⟨[3], 2⟩), ([2], ⟨[2], 4⟩)] ∧
    ([([3], ⟨[3], 2⟩), ([2], ⟨[2], 4⟩)].map (Prod.fst : GoString × AccessGroup → GoString)).Nodup :=
  ⟨.swap _ _ _, by simp⟩

/-! ## C15 -/

/-- Succeeding means the vault allowed it. -/
theorem guarded_ok {v : Vault} {who : Option Identity} {s : Scope} {oid : Oid} {f : Entry → Res × Vault} {r : Res}
    (h : (guarded v who s oid f).1 = .ok r) : ∃ i e, who = some i ∧ scopeIn s i.scopes = true ∧ v oid = some e ∧
      allowed i s e.members = true ∧ guarded v who s oid f = (.ok (f e).1, (f e).2) := by
  simp only [guarded] at h ⊢
  cases hauth : authenticate who s with
  | error e => rw [hauth] at h; cases h
  | ok i =>
    rw [hauth] at h
    simp only [authenticate] at hauth
    split at hauth; · cases hauth
    split at hauth
    · cases hauth
      simp only at h ⊢
      cases hv : v oid with
      | none => rw [hv] at h; cases h
      | some e =>
        rw [hv] at h
        simp only at h ⊢
        cases ha : allowed i s e.members with
        | false => rw [ha] at h; simp at h
        | true => exact ⟨i, e, rfl, by assumption, rfl, by assumption, rfl⟩
    · cases hauth

theorem toOutcome_ok {α : Type} {x : Except Err α} {a : α} (h : toOutcome x = .ok a) : x = .ok a := by
  cases x <;> simp [toOutcome] at h; subst h; rfl

include L in
/-- C15: after a successful `AddGroupsToAccess` the list is the union with the given groups, and nothing else changed. -/
theorem C15_add (hf : NoFault env) (hr : RandOk env) {d : D1} (hid : IdpOk d env) {v : Vault} {w w' : World}
    (hR : Rel P d w.store v) {token : GoString} {oid : Oid} {gs : List GoString} (hvalid : ∀ g ∈ gs, validUtf8 g = true)
    (h : (d.addGroupsToAccess P token oid gs).run env w = (.ok (), w')) :
    ∃ e, v oid = some e ∧
      Rel P d w'.store (v.set oid (some ⟨e.object, fun x => e.members x || decide (x ∈ gs)⟩)) := by
  obtain ⟨w1, h1, h2⟩ := run_call L hf hr hid hR (.addGroups token oid gs)
  have hrun : (callProg P d (.addGroups token oid gs)).run env w = (.ok .unit, w') := by
    simp only [callProg]; rw [Prog.run_bind_ok env h]; rfl
  rw [hrun] at h1
  simp only [Prod.mk.injEq] at h1
  obtain ⟨h1, rfl⟩ := h1
  rw [step_plain v _ _ (.addGroups token oid gs) hvalid] at h1 h2
  simp only [step] at h1 h2
  obtain ⟨i, e, _, _, hv, _, hg⟩ := guarded_ok (toOutcome_ok h1.symm)
  rw [hg] at h2
  refine ⟨e, hv, ?_⟩
  have : ∀ x, (gs.any fun g => id g == x) = decide (x ∈ gs) := by
    intro x; rw [Bool.eq_iff_iff]; simp
  simpa only [this] using h2

include L in
/-- C15: after a successful `RemoveGroupsFromAccess` the list is the difference, and nothing else changed. -/
theorem C15_remove (hf : NoFault env) (hr : RandOk env) {d : D1} (hid : IdpOk d env) {v : Vault} {w w' : World}
    (hR : Rel P d w.store v) {token : GoString} {oid : Oid} {gs : List GoString}
    (h : (d.removeGroupsFromAccess P token oid gs).run env w = (.ok (), w')) :
    ∃ e, v oid = some e ∧
      Rel P d w'.store (v.set oid (some ⟨e.object, fun x => e.members x && !decide (x ∈ gs)⟩)) := by
  obtain ⟨w1, h1, h2⟩ := run_call L hf hr hid hR (.removeGroups token oid gs)
  have hrun : (callProg P d (.removeGroups token oid gs)).run env w = (.ok .unit, w') := by
    simp only [callProg]; rw [Prog.run_bind_ok env h]; rfl
  rw [hrun] at h1
  simp only [Prod.mk.injEq] at h1
  obtain ⟨h1, rfl⟩ := h1
  simp only [step] at h1 h2
  obtain ⟨i, e, _, _, hv, _, hg⟩ := guarded_ok (toOutcome_ok h1.symm)
  rw [hg] at h2
  refine ⟨e, hv, ?_⟩
  simpa only [List.contains_eq_mem] using h2

include L in
/-- C15: `GetAccessGroups` returns exactly the list. -/
theorem C15_get (hf : NoFault env) (hr : RandOk env) {d : D1} (hid : IdpOk d env) {v : Vault} {w w' : World}
    (hR : Rel P d w.store v) {token : GoString} {oid : Oid} {g : GoSet}
    (h : (d.getAccessGroups P token oid).run env w = (.ok g, w')) :
    ∃ e, v oid = some e ∧ (∀ x, g.has x = e.members x) ∧ Rel P d w'.store v := by
  obtain ⟨w1, h1, h2⟩ := run_call L hf hr hid hR (.getGroups token oid)
  have hrun : (callProg P d (.getGroups token oid)).run env w = (.ok (.groups g.has), w') := by
    simp only [callProg]; rw [Prog.run_bind_ok env h]; rfl
  rw [hrun] at h1
  simp only [Prod.mk.injEq] at h1
  obtain ⟨h1, rfl⟩ := h1
  simp only [step] at h1 h2
  obtain ⟨i, e, _, _, hv, _, hg⟩ := guarded_ok (toOutcome_ok h1.symm)
  rw [hg] at h1 h2
  simp only [toOutcome, Outcome.ok.injEq, Res.groups.injEq] at h1
  exact ⟨e, hv, fun x => congrFun h1 x, h2⟩

include L in
/-- C15: what is read of an object is its contents, whatever the access list is. -/
theorem C15_contents (hf : NoFault env) (hr : RandOk env) {d : D1} (hid : IdpOk d env) {v : Vault} {w w' : World}
    (hR : Rel P d w.store v) {token : GoString} {oid : Oid} {o : Object}
    (h : (d.decrypt P token oid).run env w = (.ok o, w')) : ∃ e, v oid = some e ∧ o = e.object := by
  obtain ⟨w1, h1, h2⟩ := run_call L hf hr hid hR (.decrypt token oid)
  have hrun : (callProg P d (.decrypt token oid)).run env w = (.ok (.object o), w') := by
    simp only [callProg]; rw [Prog.run_bind_ok env h]; rfl
  rw [hrun] at h1
  simp only [Prod.mk.injEq] at h1
  obtain ⟨h1, rfl⟩ := h1
  simp only [step] at h1
  obtain ⟨i, e, _, _, hv, _, hg⟩ := guarded_ok (toOutcome_ok h1.symm)
  rw [hg] at h1
  simp only [toOutcome, Outcome.ok.injEq, Res.object.injEq] at h1
  exact ⟨e, hv, h1⟩

/-- C15: order and repetition of the arguments do not matter. -/
theorem C15_order (e : Entry) (gs gs' : List GoString) (h : ∀ x, x ∈ gs ↔ x ∈ gs') :
    (fun x => e.members x || decide (x ∈ gs)) = (fun x => e.members x || decide (x ∈ gs')) ∧
    (fun x => e.members x && !decide (x ∈ gs)) = fun x => e.members x && !decide (x ∈ gs') := by
  simp only [h, and_self]

/-! ## C16, C17 -/


/-- The call would put one of the IDs in `S` on the access list of `oid`. -/
def Grants (S : GoString → Prop) (oid : Oid) (a : (Option Identity × Oid) × Call) : Prop := match a with
  | ((who, fresh), .encrypt _ _ gs) => fresh = oid ∧ ∃ i, who = some i ∧ ∃ g ∈ gs ++ [i.id], S (sanitize g)
  | (_, .addGroups _ o gs) => o = oid ∧ ∃ g ∈ gs, S (sanitize g)
  | _ => False

/-- None of the IDs in `S` is on the access list of `oid`. -/
def Without (S : GoString → Prop) (oid : Oid) (v : Vault) : Prop := ∀ e, v oid = some e → ∀ x, S x → e.members x = false

theorem guarded_state (v : Vault) (who : Option Identity) (s : Scope) (oid : Oid) (f : Entry → Res × Vault) (Q : Vault → Prop)
    (h : Q v) (hf : ∀ i e, who = some i → v oid = some e → allowed i s e.members = true → Q (f e).2) :
    Q (guarded v who s oid f).2 := by
  cases hg : (guarded v who s oid f).1 with
  | ok r =>
    obtain ⟨i, e, hi, _, hv, hal, h2⟩ := guarded_ok hg
    rw [h2]; exact hf i e hi hv hal
  | error e =>
    have : (guarded v who s oid f).2 = v := by
      simp only [guarded] at hg ⊢
      cases hauth : authenticate who s with
      | error e => rfl
      | ok i =>
        rw [hauth] at hg
        simp only at hg ⊢
        cases hv : v oid with
        | none => rfl
        | some e' =>
          rw [hv] at hg
          simp only at hg ⊢
          split
          · rename_i hc; rw [if_pos hc] at hg; cases hg
          · rfl
    rw [this]; exact h

theorem without_step {S : GoString → Prop} {oid : Oid} {v : Vault} (h : Without S oid v) (who : Option Identity) (fresh : Oid)
    (c : Call) (hg : ¬ Grants S oid ((who, fresh), c)) : Without S oid (step sanitize v who fresh c).2 := by
  have hset : ∀ (o : Oid) (e' : Option Entry), (o = oid → ∀ e, e' = some e → ∀ x, S x → e.members x = false) →
      Without S oid (v.set o e') := by
    intro o e' he e hv x hx
    simp only [Vault.set] at hv
    split at hv
    · rename_i ho; exact he ho.symm e hv x hx
    · exact h e hv x hx
  cases c with
  | encrypt t o gs =>
    simp only [step]
    cases hauth : authenticate who scopeEncrypt with
    | error e => exact h
    | ok i =>
      have hi : who = some i := by
        simp only [authenticate] at hauth
        split at hauth; · cases hauth
        split at hauth
        · cases hauth; rfl
        · cases hauth
      simp only
      cases v fresh with
      | some _ => exact h
      | none =>
        apply hset
        rintro rfl e he x hx
        cases he
        rw [← Bool.not_eq_true]
        intro hc
        simp only [List.any_eq_true, beq_iff_eq] at hc
        obtain ⟨g, hgm, rfl⟩ := hc
        exact hg ⟨rfl, i, hi, g, hgm, hx⟩
  | update t o ob =>
    apply guarded_state v _ _ _ _ _ h
    intro i e hi hv _
    apply hset
    rintro rfl e' he' x hx
    cases he'
    exact h e hv x hx
  | decrypt t o => exact guarded_state v _ _ _ _ _ h (fun _ _ _ _ _ => h)
  | delete t o =>
    simp only [step]
    cases authenticate who scopeDelete with
    | error e => exact h
    | ok i =>
      simp only
      cases v o with
      | none => exact h
      | some e =>
        simp only
        split
        · exact hset o none (fun _ e he => by cases he)
        · exact h
  | getGroups t o => exact guarded_state v _ _ _ _ _ h (fun _ _ _ _ _ => h)
  | addGroups t o gs =>
    apply guarded_state v _ _ _ _ _ h
    intro i e hi hv _
    apply hset
    rintro rfl e' he' x hx
    cases he'
    simp only [Bool.or_eq_false_iff]
    refine ⟨h e hv x hx, ?_⟩
    rw [← Bool.not_eq_true]
    intro hc
    simp only [List.any_eq_true, beq_iff_eq] at hc
    obtain ⟨g, hgm, rfl⟩ := hc
    exact hg ⟨rfl, g, hgm, hx⟩
  | removeGroups t o gs =>
    apply guarded_state v _ _ _ _ _ h
    intro i e hi hv _
    apply hset
    rintro rfl e' he' x hx
    cases he'
    simp [h e hv x hx]
  | authorize t o => exact guarded_state v _ _ _ _ _ h (fun _ _ _ _ _ => h)

theorem without_after {S : GoString → Prop} {oid : Oid} (as : List ((Option Identity × Oid) × Call)) (v : Vault)
    (h : Without S oid v) (hg : ∀ a ∈ as, ¬ Grants S oid a) : Without S oid (specAfter sanitize v as) := by
  induction as generalizing v with
  | nil => exact h
  | cons a r ih =>
    obtain ⟨⟨who, fresh⟩, c⟩ := a
    exact ih _ (without_step h who fresh c (hg _ (by simp))) (fun a ha => hg a (by simp [ha]))

theorem not_allowed {i : Identity} {s : Scope} {m : GoString → Bool} (h : ∀ x, (x = i.id ∨ ∃ g, (x, g) ∈ i.groups) → m x = false) :
    allowed i s m = false := by
  simp only [allowed, Bool.or_eq_false_iff, Bool.and_eq_false_iff]
  refine ⟨.inl (h _ (.inl rfl)), ?_⟩
  rw [List.any_eq_false]
  rintro ⟨x, g⟩ hg
  simp [h x (.inr ⟨g, hg⟩)]

/-- The vault refuses everything to a caller none of whose IDs is listed. -/
theorem step_refused {v : Vault} {i : Identity} {fresh oid : Oid} {c : Call} (hc : c.onOid = some oid)
    (h : Without (fun x => x = i.id ∨ ∃ g, (x, g) ∈ i.groups) oid v) :
    ((∃ e, (step sanitize v (some i) fresh c).1 = .error e) ∧ (step sanitize v (some i) fresh c).2 = v) ∨
      ((∃ t, c = .delete t oid) ∧ v oid = none ∧ step sanitize v (some i) fresh c = (.ok .unit, v)) := by
  have hgd : ∀ s f, (∃ e, (guarded v (some i) s oid f).1 = .error e) ∧ (guarded v (some i) s oid f).2 = v := by
    intro s f
    simp only [guarded]
    cases hj : authenticate (some i) s with
    | error e => exact ⟨⟨e, rfl⟩, rfl⟩
    | ok j =>
      simp only
      cases hv : v oid with
      | none => exact ⟨⟨_, rfl⟩, rfl⟩
      | some e =>
        simp only
        have : j = i := by
          simp only [authenticate] at hj
          split at hj
          · exact (Except.ok.inj hj).symm
          · cases hj
        subst this
        rw [not_allowed (h e hv)]
        exact ⟨⟨_, rfl⟩, rfl⟩
  cases c <;> simp only [Spec.Call.onOid, Option.some.injEq, reduceCtorEq] at hc <;> subst hc
  case delete t o =>
    simp only [step]
    cases hj : authenticate (some i) scopeDelete with
    | error e => exact .inl ⟨⟨e, rfl⟩, rfl⟩
    | ok j =>
      have : j = i := by
        simp only [authenticate] at hj
        split at hj
        · exact (Except.ok.inj hj).symm
        · cases hj
      subst this
      simp only
      cases hv : v o with
      | none => exact .inr ⟨⟨t, rfl⟩, rfl, rfl⟩
      | some e =>
        simp only
        rw [not_allowed (h e hv)]
        exact .inl ⟨⟨_, rfl⟩, rfl⟩
  all_goals exact .inl (hgd _ _)

include L in
/-- C16: once none of a caller's IDs is on the list of an object, then after any calls by anybody that do not put one of
them back, every call by that caller on the object fails and changes nothing (deleting it once it is gone is a no-op). -/
theorem C16_revoked (hf : NoFault env) (hr : RandOk env) {d : D1} (hid : IdpOk d env) {v : Vault} {w : World}
    (hR : Rel P d w.store v) {oid : Oid} (i : Identity)
    (hout : ∀ e, v oid = some e → ∀ x ∈ i.getIDs, e.members x = false)
    (calls : List Call) (hno : ∀ a ∈ annotate P d env w calls, ¬ Grants (· ∈ i.getIDs) oid a)
    (c : Call) (hc : c.onOid = some oid) (hwho : whoIs d env (codeAfter P d env w calls) c.token = some i) :
    (∃ e w', (callProg P d c).run env (codeAfter P d env w calls) = (.err e, w')) ∨
      ((∃ t, c = .delete t oid) ∧ (codeAfter P d env w calls).store oid.1 dtObject = none ∧
        (codeAfter P d env w calls).store oid.1 dtAccess = none) := by
  have hS : (fun x => x = i.id ∨ ∃ g, (x, g) ∈ i.groups) = (· ∈ i.getIDs) := by
    funext x; simp only [(C46_getIDs i x).1]
  obtain ⟨_, hR'⟩ := C02_refines L hf hr hid calls w v hR
  have hw := without_after (annotate P d env w calls) v (S := (· ∈ i.getIDs)) (oid := oid) hout hno
  obtain ⟨w', h1, h2⟩ := run_call L hf hr hid hR' c
  rw [hwho] at h1
  rcases step_refused (v := specAfter sanitize v (annotate P d env w calls)) (i := i)
      (fresh := freshOid d env (codeAfter P d env w calls) c.token) hc (by rw [hS]; exact hw) with
    ⟨⟨e, he⟩, _⟩ | ⟨ht, hv, _⟩
  · rw [he] at h1
    exact .inl ⟨e, w', h1⟩
  · have := hR' oid
    rw [hv] at this
    exact .inr ⟨ht, this⟩

include L in
/-- C16: a successful `RemoveGroupsFromAccess` that names all of a caller's listed IDs brings about that situation. -/
theorem C16_after_remove (hf : NoFault env) (hr : RandOk env) {d : D1} (hid : IdpOk d env) {v : Vault} {w w' : World}
    (hR : Rel P d w.store v) {token : GoString} {oid : Oid} {gs : List GoString}
    (h : (d.removeGroupsFromAccess P token oid gs).run env w = (.ok (), w')) (i : Identity)
    (hall : ∀ e, v oid = some e → ∀ x ∈ i.getIDs, e.members x = true → x ∈ gs) :
    ∃ v', Rel P d w'.store v' ∧ ∀ e, v' oid = some e → ∀ x ∈ i.getIDs, e.members x = false := by
  obtain ⟨e, hv, hR'⟩ := C15_remove L hf hr hid hR h
  refine ⟨_, hR', ?_⟩
  intro e' he' x hx
  simp only [Vault.set, if_true, Option.some.injEq] at he'
  subst he'
  simp only
  cases hm : e.members x with
  | false => rfl
  | true => simp [hall e hv x hx hm]

/-- The vault never changes an entry with an empty list. -/
theorem step_locked {v : Vault} {oid : Oid} {e : Entry} (hv : v oid = some e) (hm : ∀ x, e.members x = false)
    (who : Option Identity) (fresh : Oid) (c : Call) :
    (step sanitize v who fresh c).2 oid = some e ∧
      (c.onOid = some oid → ∃ er, (step sanitize v who fresh c).1 = .error er) := by
  by_cases hc : c.onOid = some oid
  · cases who with
    | none =>
      have hgd : ∀ s f, guarded v none s oid f = (.error .notAuthenticated, v) := fun s f => rfl
      cases c <;> simp only [Spec.Call.onOid, Option.some.injEq, reduceCtorEq] at hc <;> subst hc
      all_goals exact ⟨hv, fun _ => ⟨_, rfl⟩⟩
    | some i =>
      rcases step_refused (v := v) (i := i) (fresh := fresh) hc (fun e' he' x _ => by rw [hv] at he'; cases he'; exact hm x) with
        ⟨⟨er, he⟩, hst⟩ | ⟨_, hn, _⟩
      · exact ⟨by rw [hst]; exact hv, fun _ => ⟨er, he⟩⟩
      · rw [hv] at hn; cases hn
  · refine ⟨?_, fun h => absurd h hc⟩
    have hset : ∀ (o : Oid) (e' : Option Entry), o ≠ oid → (v.set o e') oid = some e := by
      intro o e' ho; simp only [Vault.set, if_neg (Ne.symm ho)]; exact hv
    cases c with
    | encrypt t o gs =>
      simp only [step]
      cases authenticate who scopeEncrypt with
      | error _ => exact hv
      | ok i =>
        simp only
        cases hfr : v fresh with
        | some _ => exact hv
        | none => exact hset _ _ (fun h => by rw [h, hv] at hfr; cases hfr)
    | delete t o =>
      simp only [Spec.Call.onOid, Option.some.injEq] at hc
      simp only [step]
      cases authenticate who scopeDelete with
      | error _ => exact hv
      | ok i =>
        simp only
        cases v o with
        | none => exact hv
        | some e' =>
          simp only
          split
          · exact hset _ _ hc
          · exact hv
    | update t o _ | addGroups t o _ | removeGroups t o _ =>
      simp only [Spec.Call.onOid, Option.some.injEq] at hc
      exact guarded_state v _ _ _ _ (fun v => v oid = some e) hv (fun _ _ _ _ _ => hset _ _ hc)
    | decrypt t o | getGroups t o | authorize t o =>
      exact guarded_state v _ _ _ _ (fun v => v oid = some e) hv (fun _ _ _ _ _ => hv)

include L in
/-- C17: once the access list is empty, then after any calls by anybody the object is stored as before with an empty
list, and every call on it fails. -/
theorem C17_locked (hf : NoFault env) (hr : RandOk env) {d : D1} (hid : IdpOk d env) {v : Vault} {w : World}
    (hR : Rel P d w.store v) {oid : Oid} {e : Entry} (hv : v oid = some e) (hm : ∀ x, e.members x = false)
    (calls : List Call) :
    EntryAt P d (codeAfter P d env w calls).store oid e ∧
      ∀ c : Call, c.onOid = some oid → ∃ er w', (callProg P d c).run env (codeAfter P d env w calls) = (.err er, w') := by
  obtain ⟨-, hR'⟩ := C02_refines L hf hr hid calls w v hR
  have hkeep : specAfter sanitize v (annotate P d env w calls) oid = some e := by
    generalize annotate P d env w calls = as
    clear hR hR'
    induction as generalizing v with
    | nil => exact hv
    | cons a r ih =>
      obtain ⟨⟨who, fresh⟩, c⟩ := a
      exact ih (step_locked hv hm who fresh c).1
  constructor
  · have := hR' oid
    rw [hkeep] at this
    exact this
  · intro c hc
    obtain ⟨w', h1, _⟩ := run_call L hf hr hid hR' c
    obtain ⟨er, he⟩ := (step_locked hkeep hm (whoIs d env (codeAfter P d env w calls) c.token)
      (freshOid d env (codeAfter P d env w calls) c.token) c).2 hc
    rw [he] at h1
    exact ⟨er, w', h1⟩

/-! ## C18

Full statement: after `Encrypt` with groups `gs`, an ID is on the list iff it is in `gs` or the creator's.  False for IDs
that are not valid UTF-8. -/

include L in
/-- C18, exactly what is on the list after `Encrypt`. -/
theorem C18_recorded {d : D1} {token : GoString} {o : Object} {gs : List GoString} {w w1 : World} {oid : Oid}
    (h : (d.encrypt P token o gs).run env w = (.ok oid, w1)) :
    ∃ i wi a, (d.idProvider token).run env w = (.ok i, wi) ∧ AccAt P d w1.store oid a ∧
      ∀ x, a.groups.has x = true ↔ ∃ g ∈ gs ++ [i.id], sanitize g = x := by
  obtain ⟨i, wi, hi, _, a, ha, _, hm⟩ := encrypt_stored L h
  refine ⟨i, wi, a, hi, ha, fun x => ?_⟩
  rw [hm, List.any_eq_true]
  simp only [beq_iff_eq]

include L in
/-- C18, the part that holds: for valid UTF-8 the list is exactly the granted IDs. -/
theorem C18_faithful_partial {d : D1} {token : GoString} {o : Object} {gs : List GoString} {w w1 : World} {oid : Oid}
    (h : (d.encrypt P token o gs).run env w = (.ok oid, w1)) (hgs : ∀ g ∈ gs, validUtf8 g = true)
    (hid : ∀ i wi, (d.idProvider token).run env w = (.ok i, wi) → validUtf8 i.id = true) :
    ∃ i wi a, (d.idProvider token).run env w = (.ok i, wi) ∧ AccAt P d w1.store oid a ∧
      ∀ x, a.groups.has x = true ↔ x ∈ gs ∨ x = i.id := by
  obtain ⟨i, wi, a, hi, ha, hm⟩ := C18_recorded L h
  refine ⟨i, wi, a, hi, ha, fun x => ?_⟩
  rw [hm]
  simp only [List.mem_append, List.mem_singleton]
  constructor
  · rintro ⟨g, hg | rfl, rfl⟩
    · rw [sanitize_of_valid (hgs g hg)]; exact .inl hg
    · rw [sanitize_of_valid (hid i wi hi)]; exact .inr rfl
  · rintro (hg | rfl)
    · exact ⟨x, .inl hg, sanitize_of_valid (hgs x hg)⟩
    · exact ⟨_, .inr rfl, sanitize_of_valid (hid i wi hi)⟩

include L in
/-- C18, refutation: granting the ID consisting of the byte FF does not put it on the list, but puts U+FFFD on it, which
was never granted. -/
theorem C18_false {d : D1} {token : GoString} {o : Object} {w w1 : World} {oid : Oid}
    (h : (d.encrypt P token o [[0xFF]]).run env w = (.ok oid, w1)) :
    ∃ a, AccAt P d w1.store oid a ∧ a.groups.has [0xFF] = false ∧ a.groups.has [0xEF, 0xBF, 0xBD] = true := by
  obtain ⟨i, wi, a, hi, ha, hm⟩ := C18_recorded L h
  refine ⟨a, ha, ?_, (hm _).mpr ⟨[0xFF], by simp, by decide⟩⟩
  rw [← Bool.not_eq_true, hm]
  rintro ⟨g, _, hg⟩
  have := sanitize_idem g
  rw [hg] at this
  revert this; decide

end

end D1
