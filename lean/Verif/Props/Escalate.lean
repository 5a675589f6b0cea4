import Verif.Props.DirConcurrent
import Verif.Props.EndToEnd
import Verif.Props.NoPanic
/-!
# No way in through concurrency: C85

D1 with the Standalone provider.  Some users, the outsiders, hold no ID that is on the access list of an object.  Whatever they call, and however
their calls interleave with each other and with the calls of everybody else, with any IO failures and crashes, none of their calls gets
at the object, unless somebody else lets them in.
-/
namespace D1
open Spec Prog

/-- Who performs which effect under a schedule. -/
def performed {α : Type} (env : Env) : List Nat → World → List (Prog α) → List (Nat × Eff)
  | [], _, _ => []
  | j :: r, w, ps => match ps[j]? with
    | some (.op e k) => (j, e) :: performed env r (w.exec env e).2 (ps.set j (k (w.exec env e).1))
    | _ => performed env r w ps

/-- A user record that reads as this user. -/
def HoldsUser (P : Prims) (s : Standalone) (b : Bytes) (x : User) : Prop :=
  ∃ su, (P.unmarshal b).bind SealedUser.ofJ = some su ∧ su.unseal P s.userCryptor = .ok x

/-- No outsider holds an ID out of `G`, and all IDs on the access list of the object are in `G`. -/
def ShutOut (P : Prims) (d : D1) (s : Standalone) (oid : Oid) (out G : GoString → Prop) (st : Store) : Prop :=
  (∀ u, out u → ∀ b x, st u dtUser = some b → HoldsUser P s b x → ∀ g ∈ x.groups.getD [], sanitize g = g ∧ ¬ G g) ∧
  ∀ b a, st oid.1 dtAccess = some b → Accepts P d oid b a → ∀ x ∈ a.groups.getD [], sanitize x = x ∧ G x

/-- The token is one of an outsider. -/
def ByOutsider (P : Prims) (s : Standalone) (out : GoString → Prop) (token : GoString) : Prop := ∃ u, out u ∧ Names P s token u

/-- Nobody but outsiders themselves lets outsiders in: others share the object only with IDs in `G`, and add outsiders only to groups
that are not in `G`.  What outsiders call is not restricted. -/
def NotLetIn (P : Prims) (s : Standalone) (oid : Oid) (out G : GoString → Prop) : ApiCall → Prop
  | .d1 (.addGroups t oid' gs) => oid' = oid → ¬ ByOutsider P s out t → ∀ g ∈ gs, G (sanitize g)
  | .dir (.addUser t u gs) => out u → ¬ ByOutsider P s out t → ∀ g ∈ gs, ¬ G (sanitize g)
  | _ => True

/-- What an outsider's call on the object performs: no writes, and no reading of the object record. -/
def HandsOff (e : Eff) : Prop := e.target = none ∧ e.dataType ≠ some dtObject

/-! ## The logic -/

/-- `Safe`, and the program performs only effects in `E`. -/
def Within {S α : Type} (step : S → (e : Eff) → e.Resp → S → Prop) (I : S → Prop) (E : Eff → Prop) (R : Outcome α → Prop) : Prog α → Prop
  | .ret a => R (.ok a)
  | .err e => R (.err e)
  | .panic => R .panic
  | .diverge => R .diverge
  | .op e k => E e ∧ ∀ s r s', I s → step s e r s' → I s' ∧ Within step I E R (k r)

section
variable {S α β : Type} {step : S → (e : Eff) → e.Resp → S → Prop} {I : S → Prop} {E : Eff → Prop}

theorem Safe.within {R : Outcome α → Prop} {p : Prog α} (h : Safe step I R p) (he : AllEff E p) : Within step I E R p := by
  induction p with
  | op e k ih => exact ⟨he.1, fun s r s' h1 h2 => ⟨(h s r s' h1 h2).1, ih r (h s r s' h1 h2).2 (he.2 r)⟩⟩
  | _ => exact h

theorem allEff_true {p : Prog α} : AllEff (fun _ => True) p := by
  induction p with
  | op e k ih => exact ⟨trivial, ih⟩
  | _ => trivial

theorem Safe.anti {step' : S → (e : Eff) → e.Resp → S → Prop} (hs : ∀ s e r s', step' s e r s' → step s e r s') {R : Outcome α → Prop}
    {p : Prog α} (h : Safe step I R p) : Safe step' I R p := by
  induction p with
  | op e k ih => exact fun s r s' h1 h2 => ⟨(h s r s' h1 (hs _ _ _ _ h2)).1, ih r (h s r s' h1 (hs _ _ _ _ h2)).2⟩
  | _ => exact h

theorem Within.bind {R : Outcome α → Prop} {R' : Outcome β → Prop} {p : Prog α} {k : α → Prog β} (hp : Within step I E R p)
    (hk : ∀ a, R (.ok a) → Within step I E R' (k a)) (he : ∀ e, R (.err e) → R' (.err e)) (hpa : R .panic → R' .panic)
    (hd : R .diverge → R' .diverge) : Within step I E R' (p.bind k) := by
  induction p with
  | op e c ih => exact ⟨hp.1, fun s r s' h1 h2 => ⟨(hp.2 s r s' h1 h2).1, ih r (hp.2 s r s' h1 h2).2⟩⟩
  | ret a => exact hk a hp
  | err e => exact he e hp
  | panic => exact hpa hp
  | diverge => exact hd hp

theorem Within.attempt {R : Outcome α → Prop} {R' : Outcome β → Prop} {p : Prog α} {k : Except Err α → Prog β} (hp : Within step I E R p)
    (hk : ∀ a, R (.ok a) → Within step I E R' (k (.ok a))) (he : ∀ e, R (.err e) → Within step I E R' (k (.error e))) (hpa : R .panic → R' .panic)
    (hd : R .diverge → R' .diverge) : Within step I E R' (p.attempt k) := by
  induction p with
  | op e c ih => exact ⟨hp.1, fun s r s' h1 h2 => ⟨(hp.2 s r s' h1 h2).1, ih r (hp.2 s r s' h1 h2).2⟩⟩
  | ret a => exact hk a hp
  | err e => exact he e hp
  | panic => exact hpa hp
  | diverge => exact hd hp

theorem Within.mono {E' : Eff → Prop} (h : ∀ e, E e → E' e) {R : Outcome α → Prop} {p : Prog α} (hp : Within step I E R p) : Within step I E' R p := by
  induction p with
  | op e c ih => exact ⟨h e hp.1, fun s r s' h1 h2 => ⟨(hp.2 s r s' h1 h2).1, ih r (hp.2 s r s' h1 h2).2⟩⟩
  | _ => exact hp

theorem Within.outcome {R : Outcome α → Prop} {p : Prog α} {o : Outcome α} (h : Within step I E R p) (ho : p.outcome = some o) : R o := by
  cases p <;> simp only [Prog.outcome, Option.some.injEq, reduceCtorEq] at ho <;> subst ho <;> exact h
end

/-- The steps that happen in an environment from some moment on. -/
def RunStep (env : Env) (lo : Nat) (st : Store) (e : Eff) (r : e.Resp) (st' : Store) : Prop :=
  ∃ t, lo ≤ t ∧ ((⟨st, t⟩ : World).exec env e).1 = r ∧ ((⟨st, t⟩ : World).exec env e).2.store = st'

theorem RunStep.any {env : Env} {lo : Nat} {st st' : Store} {e : Eff} {r : e.Resp} (h : RunStep env lo st e r st') : AnyStep st e r st' := by
  obtain ⟨t, -, rfl, rfl⟩ := h
  exact anyStep env ⟨st, t⟩ e

/-- What is drawn comes from the environment. -/
theorem RunStep.rand {env : Env} {lo : Nat} {st st' : Store} {n : Nat} {b : BytesN n} (h : RunStep env lo st (.rand n) (some b) st') :
    ∃ t, lo ≤ t ∧ env.rand t n = some b := by
  obtain ⟨t, h0, h1, -⟩ := h
  refine ⟨t, h0, ?_⟩
  revert h1
  simp only [World.exec]
  cases env.fault t <;> exact fun h => h

theorem Within.sched {α : Type} {env : Env} {lo : Nat} {I : Store → Prop} {E : Nat → Eff → Prop} {R : Nat → Outcome α → Prop} (sch : List Nat) {w : World} {ps : List (Prog α)}
    (hlo : lo ≤ w.t) (hi : I w.store) (h : ∀ j p, ps[j]? = some p → Within (RunStep env lo) I (E j) (R j) p) :
    I (sched env sch w ps).1.store ∧ (∀ j o, (j, o) ∈ commits env sch w ps → R j o) ∧ ∀ j e, (j, e) ∈ performed env sch w ps → E j e := by
  induction sch generalizing w ps with
  | nil => exact ⟨hi, by simp [commits], by simp [performed]⟩
  | cons j sch ih =>
    simp only [D1.sched, commits, performed]
    cases hj : ps[j]? with
    | none => simpa using ih hlo hi h
    | some p =>
      cases p with
      | op e k =>
        simp only
        obtain ⟨h1, h2⟩ := h j _ hj
        obtain ⟨h3, h4⟩ := h2 w.store (w.exec env e).1 (w.exec env e).2.store hi ⟨w.t, hlo, rfl, rfl⟩
        obtain ⟨g1, g2, g3⟩ := ih (w := (w.exec env e).2) (ps := ps.set j (k (w.exec env e).1)) (by rw [exec_t]; omega) h3 fun j' p hp => by
          by_cases hjj : j = j'
          · subst hjj
            rw [List.getElem?_set_self (List.getElem?_eq_some_iff.mp hj).1] at hp
            cases hp
            exact h4
          · rw [List.getElem?_set_ne hjj] at hp
            exact h j' p hp
        refine ⟨g1, fun j' o hm => ?_, fun j' e' hm => ?_⟩
        · cases ho : (k (w.exec env e).1).outcome with
          | none => rw [ho] at hm; exact g2 j' o hm
          | some o' =>
            rw [ho] at hm
            rcases List.mem_cons.mp hm with hm | hm
            · cases hm; exact h4.outcome ho
            · exact g2 j' o hm
        · rcases List.mem_cons.mp hm with hm | hm
          · cases hm; exact h1
          · exact g3 j' e' hm
      | _ => simpa using ih hlo hi h

section
variable {P : Prims} (L : P.Laws) {d : D1} {i : SecureIndex} {s : Standalone} {env : Env} {lo : Nat} {oid : Oid} {out G : GoString → Prop}

local notation "SHUT" => ShutOut P d s oid out G
local notation "STEP" => RunStep env lo

/-- Effects that keep the invariant. -/
def Leave (P : Prims) (d : D1) (s : Standalone) (oid : Oid) (out G : GoString → Prop) (e : Eff) : Prop :=
  ∀ st r st', ShutOut P d s oid out G st → AnyStep st e r st' → ShutOut P d s oid out G st'

local notation "LEAVE" => Leave P d s oid out G

theorem shut_of_same {st st' : Store} (h : SHUT st) (h1 : ∀ u, out u → st' u dtUser = st u dtUser ∨ st' u dtUser = none)
    (h2 : st' oid.1 dtAccess = st oid.1 dtAccess ∨ st' oid.1 dtAccess = none) : SHUT st' := by
  refine ⟨fun u hu b x hb => ?_, fun b a hb => ?_⟩
  · rcases h1 u hu with h1 | h1
    · exact h.1 u hu b x (h1 ▸ hb)
    · rw [h1] at hb; cases hb
  · rcases h2 with h2 | h2
    · exact h.2 b a (h2 ▸ hb)
    · rw [h2] at hb; cases hb

theorem leave_frame {e : Eff} (h1 : ∀ u, out u → e.target ≠ some (u, dtUser)) (h2 : e.target ≠ some (oid.1, dtAccess)) : LEAVE e :=
  fun _ _ _ h hst => shut_of_same h (fun u hu => .inl (hst.frame (h1 u hu))) (.inl (hst.frame h2))

theorem leave_rand (n : Nat) : LEAVE (.rand n) := leave_frame (by simp [Eff.target]) (by simp [Eff.target])
theorem leave_now : LEAVE .now := leave_frame (by simp [Eff.target]) (by simp [Eff.target])
theorem leave_get (id : Bytes) (dt : DataType) : LEAVE (.get id dt) := leave_frame (by simp [Eff.target]) (by simp [Eff.target])
theorem leave_type {e : Eff} {dt : DataType} (h : e.dataType = some dt) (h1 : dt ≠ dtUser) (h2 : dt ≠ dtAccess) : LEAVE e := by
  refine leave_frame (fun u _ => ?_) ?_ <;> cases e <;> simp only [Eff.dataType, Option.some.injEq, reduceCtorEq] at h <;>
    simp [Eff.target, h, h1, h2]

theorem leave_delete (id : Bytes) (dt : DataType) : LEAVE (.delete id dt) := by
  rintro st r st' h ⟨rnd, clk, hst⟩
  have hd : (st.exec rnd clk (.delete id dt)).2 = st.set id dt none := rfl
  have key : SHUT (st.set id dt none) := by
    refine shut_of_same h (fun u _ => ?_) ?_ <;> simp only [Store.set] <;> split <;> simp
  rcases hst with hst | ⟨-, rfl | rfl⟩
  · rw [hst] at hd
    obtain rfl : st' = _ := hd
    exact key
  · exact h
  · exact hd ▸ key

theorem shut_leave {α : Type} {R : Outcome α → Prop} {p : Prog α} (hp : AllEff LEAVE p) (ho : AllOut R p) : Safe STEP SHUT R p :=
  (safe_frame (Q := LEAVE) (fun _ h => h) hp ho).anti fun _ _ _ _ h => h.any

/-! ### Users -/

/-- What is read of an outsider. -/
def OutsiderOk (G : GoString → Prop) (x : User) : Prop := ∀ g ∈ x.groups.getD [], sanitize g = g ∧ ¬ G g

theorem shut_getUser (uid : GoString) : Safe STEP SHUT (fun o => ∀ x, o = .ok x → out uid → OutsiderOk G x) (s.getUser P uid) := by
  rw [getUser_op]
  intro st r st' h hst
  obtain ⟨rfl, hr⟩ := anyStep_get (r := r) hst.any
  refine ⟨h, ?_⟩
  rcases hr with hr | rfl
  · cases hs : st' uid dtUser with
    | none => rw [hs] at hr; subst hr; rintro _ ⟨⟩
    | some b =>
      rw [hs] at hr
      subst hr
      show Safe _ _ _ (match (P.unmarshal b).bind SealedUser.ofJ with | none => .err .json | some user => Prog.ofExcept (user.unseal P s.userCryptor))
      cases hu : (P.unmarshal b).bind SealedUser.ofJ with
      | none => rintro _ ⟨⟩
      | some su =>
        simp only
        cases hx : su.unseal P s.userCryptor with
        | error e => rintro _ ⟨⟩
        | ok x =>
          rintro _ ⟨⟩ ho
          exact h.1 uid ho b x hs ⟨su, hu, hx⟩
  · rintro _ ⟨⟩

include L in
/-- What a sealed user reads as. -/
theorem holdsUser_sealed {uid : GoString} (hu : sanitize uid = uid) {x y : User} {k : BytesN 32} {n : BytesN 12}
    (h : HoldsUser P s (sealedUser P s uid x k n).toJ.render y) : y = { x with groups := x.groups.map sanList } := by
  obtain ⟨su, h1, h2⟩ := h
  rw [L.unmarshal_render, Option.bind_some, SealedUser.ofJ_toJ] at h1
  cases h1
  simp only [sealedUser, hu, SealedUser.unseal, NBytes.bytes, Option.getD_some] at h2
  rw [Cryptor.decrypt_box L, User.ofJ_toJ] at h2
  cases h2
  rfl

include L in
/-- Writing a user. -/
theorem shut_putUser (hG : ∀ u, out u → sanitize u = u ∧ ¬ G u) {uid : GoString} {x : User}
    (hx : out uid → ∀ g ∈ x.groups.getD [], ¬ G (sanitize g)) (up : Bool) : Safe STEP SHUT (fun _ => True) (s.putUser P uid x up) := by
  rw [Standalone.putUser, User.seal, Prog.bind_eq, Prog.bind_eq, Prog.bind_assoc]
  refine ((safe_encrypt L s.userCryptor _ _).anti fun _ _ _ _ h => h.any).bind ?_ (fun _ _ => trivial) (fun h => h.elim) (fun h => h.elim)
  rintro r ⟨k, n, rfl⟩
  show Safe STEP SHUT _ (if up = true then ioUpdate (onNotFound .userNotFound) uid dtUser (sealedUser P s uid x k n).toJ.render
    else ioPut (onAlreadyExists .userAlreadyExists) uid dtUser (sealedUser P s uid x k n).toJ.render)
  have key : ∀ st, SHUT st → SHUT (st.set uid dtUser (some (sealedUser P s uid x k n).toJ.render)) := by
    intro st h
    refine ⟨fun u hu b y hb hy g hg => ?_, fun b a hb => h.2 b a ?_⟩
    · by_cases huu : u = uid
      · subst huu
        rw [Store.set_same, Option.some.injEq] at hb
        subst hb
        obtain rfl := holdsUser_sealed L (hG u hu).1 hy
        cases hgr : x.groups with
        | none => simp [hgr] at hg
        | some l =>
          simp only [hgr, Option.map_some, Option.getD_some] at hg
          obtain ⟨g', hg', rfl⟩ := (mem_sanList _ _).mp hg
          exact ⟨sanitize_idem _, hx hu g' (by simpa [hgr] using hg')⟩
      · rw [Store.set_other _ _ _ _ _ _ (fun h => huu h.1)] at hb
        exact h.1 u hu b y hb hy g hg
    · rwa [Store.set_other _ _ _ _ _ _ (fun h => absurd h.2 (by decide))] at hb
  cases up
  · rw [if_neg (by simp), ioPut]
    intro st r st' h hst
    refine ⟨?_, shut_leave (by cases r <;> trivial) allOut_true⟩
    rcases anyStep_put (r := r) hst.any with ⟨-, rfl⟩ | rfl
    · exact key _ h
    · exact h
  · rw [if_pos rfl, ioUpdate]
    intro st r st' h hst
    refine ⟨?_, shut_leave (by cases r <;> trivial) allOut_true⟩
    rcases (anyStep_update (r := r) hst.any).1 with rfl | rfl
    · exact h
    · exact key _ h

theorem names_unique {t u v : GoString} (h : Names P s t u) (h' : Names P s t v) : u = v := by
  obtain ⟨n, h⟩ := h
  obtain ⟨m, h'⟩ := h'
  simp only [tokenUser] at h h'
  cases ht : tokenFromString P t with
  | error e => rw [ht] at h; cases h
  | ok tk =>
    rw [ht] at h h'
    simp only at h h'
    split at h
    · cases h
    · split at h'
      · cases h'
      · cases hd : s.tokenCryptor.decrypt P J.toBytes (.ofTime P tk.expiryTime) tk.wrappedKey.bytes tk.ciphertext.bytes with
        | error e => rw [hd] at h; cases h
        | ok p => rw [hd] at h h'; cases h; cases h'; rfl

/-- What is known of the caller. -/
def CallerOk (P : Prims) (s : Standalone) (out G : GoString → Prop) (token : GoString) (i : Identity) : Prop :=
  Names P s token i.id ∧ (out i.id → ∀ g ∈ i.groups.map Prod.fst, sanitize g = g ∧ ¬ G g)

theorem shut_getIdentity (token : GoString) : Safe STEP SHUT (fun o => ∀ i, o = .ok i → CallerOk P s out G token i) (s.getIdentity P token) := by
  rw [Standalone.getIdentity]
  cases ht : tokenFromString P token with
  | error e => rintro _ ⟨⟩
  | ok t =>
    simp only
    have hun : Safe STEP SHUT (fun o => ∀ tk, o = .ok tk → Names P s token tk.plaintext.bytes) (t.unseal P s.tokenCryptor) := by
      refine shut_leave (allEff_tokenUnseal leave_now _ _) ?_
      rw [SealedToken.unseal]
      intro now
      show AllOut _ (if t.expiryTime.before now = true then _ else _)
      by_cases hexp : t.expiryTime.ns < GoTime.ns now
      · rw [if_pos (by show decide _ = true; simpa using hexp)]
        rintro _ ⟨⟩
      · rw [if_neg (by show ¬ decide _ = true; simpa using hexp)]
        cases hd : s.tokenCryptor.decrypt P J.toBytes (.ofTime P t.expiryTime) t.wrappedKey.bytes t.ciphertext.bytes with
        | error e => rintro _ ⟨⟩
        | ok p =>
          rintro _ ⟨⟩
          refine ⟨GoTime.ns now, ?_⟩
          rw [tokenUser, ht]
          simp only
          rw [if_neg hexp, hd]
    refine hun.attempt ?_ (fun _ _ => by rintro _ ⟨⟩) (fun _ => by rintro _ ⟨⟩) (fun _ => by rintro _ ⟨⟩)
    intro tk htk
    have hn := htk tk rfl
    simp only [Prog.bind_eq, Prog.pure_eq]
    refine (shut_getUser _).bind ?_ (fun _ _ => by rintro _ ⟨⟩) (fun _ => by rintro _ ⟨⟩) (fun _ => by rintro _ ⟨⟩)
    intro x hx
    refine (shut_leave (allEff_fetchGroups (fun _ => leave_get _ _) _) (fetchGroups_keys _)).bind ?_ (fun _ _ => by rintro _ ⟨⟩) (fun _ => by rintro _ ⟨⟩)
      (fun _ => by rintro _ ⟨⟩)
    rintro gs hgs _ ⟨⟩
    refine ⟨hn, fun ho => ?_⟩
    rw [hgs gs rfl]
    exact hx x rfl ho

theorem CallerOk.ids (hG : ∀ u, out u → sanitize u = u ∧ ¬ G u) {token : GoString} {i : Identity} (h : CallerOk P s out G token i)
    (ho : ByOutsider P s out token) : ∀ g ∈ i.getIDs, sanitize g = g ∧ ¬ G g := by
  obtain ⟨u, hu, hn⟩ := ho
  obtain rfl := names_unique hn h.1
  intro g hg
  rcases (C46_getIDs i g).1.mp hg with rfl | ⟨gr, hg⟩
  · exact hG _ hu
  · exact h.2 hu g (List.mem_map.mpr ⟨_, hg, rfl⟩)

theorem addToSet_sub {x x' : GoSet} {gs : List GoString} (h : addToSet x gs = some x') : ∀ g ∈ x'.getD [], g ∈ x.getD [] ∨ g ∈ gs := by
  cases x with
  | some l =>
    rw [addToSet_some] at h
    cases h
    exact fun g hg => (mem_foldl_setInsert _ _ _).mp hg
  | none =>
    cases gs with
    | nil => cases h; simp
    | cons g gs => cases h

theorem removeFromSet_sub {x : GoSet} {gs : List GoString} : ∀ g ∈ (removeFromSet x gs).getD [], g ∈ x.getD [] := by
  cases x with
  | none => simp [removeFromSet]
  | some l => exact fun g hg => ((mem_foldl_setErase _ _ _).mp hg).1

theorem changePassword_groups (x : User) (p : GoString) : AllOut (fun o => ∀ r, o = .ok r → r.1.groups = x.groups) (x.changePassword P p) := by
  rw [User.changePassword]
  refine (allOut_true (p := x.authenticate P p)).bind ?_ (fun _ _ => by rintro _ ⟨⟩) (fun _ => by rintro _ ⟨⟩) (fun _ => by rintro _ ⟨⟩)
  intro _ _
  refine (allOut_true (p := generatePassword P)).bind ?_ (fun _ _ => by rintro _ ⟨⟩) (fun _ => by rintro _ ⟨⟩) (fun _ => by rintro _ ⟨⟩)
  rintro _ _ _ ⟨⟩
  rfl

theorem allEff_changePassword {Q : Eff → Prop} (hr : ∀ n, Q (.rand n)) (x : User) (p : GoString) : AllEff Q (x.changePassword P p) :=
  AllEff.bind (allEff_authenticate _ _) fun _ => AllEff.bind (allEff_generatePassword hr) fun _ => trivial

theorem shut_newV4 : Safe STEP SHUT (fun o => ∀ u, o = .ok u → ∃ t b, lo ≤ t ∧ env.rand t 16 = some b ∧ u = mkV4 b) newV4 := by
  rw [newV4, randBytes, Prog.bind_eq, op_bind]
  intro st r st' h hst
  refine ⟨leave_rand 16 st r st' h hst.any, ?_⟩
  cases r with
  | none => rintro _ ⟨⟩
  | some b =>
    obtain ⟨t, h0, ht⟩ := hst.rand
    rintro _ ⟨⟩
    exact ⟨t, b, h0, ht, rfl⟩

include L in
/-- The calls of the Standalone provider. -/
theorem shut_dir (hG : ∀ u, out u → sanitize u = u ∧ ¬ G u) (hdraw : ∀ t b, lo ≤ t → env.rand t 16 = some b → ¬ G (newName b)) {c : DirCall}
    (hc : NotLetIn P s oid out G (.dir c)) : Safe STEP SHUT (fun _ => True) (dirProg P s c) := by
  have fin : ∀ {α β : Type} {R : Outcome α → Prop} {p : Prog α} (k : α → β), Safe STEP SHUT R p → Safe STEP SHUT (fun _ => True) (p.bind fun r => .ret (k r)) :=
    fun k h => h.bind (fun _ _ => trivial) (fun _ _ => trivial) (fun _ => trivial) (fun _ => trivial)
  cases c with
  | newUser sc =>
    refine fin _ (R := fun _ => True) ?_
    refine shut_newV4.bind (fun u _ => ?_) (fun _ _ => trivial) (fun _ => trivial) (fun _ => trivial)
    refine Safe.bind (R := fun o => ∀ r, o = .ok r → r.1.groups = some []) (shut_leave ?_ ?_) (fun r hr => ?_) (fun _ _ => trivial) (fun _ => trivial) (fun _ => trivial)
    · exact AllEff.bind (allEff_generatePassword leave_rand) fun _ => trivial
    · refine (allOut_true (p := generatePassword P)).bind ?_ (fun _ _ => by rintro _ ⟨⟩) (fun _ => by rintro _ ⟨⟩) (fun _ => by rintro _ ⟨⟩)
      rintro _ _ _ ⟨⟩
      rfl
    · refine (shut_putUser L hG (fun _ g hg => ?_) false).bind (fun _ _ => trivial) (fun _ _ => trivial) (fun _ => trivial) (fun _ => trivial)
      rw [hr r rfl] at hg
      cases hg
  | loginUser u p => exact fin _ (shut_leave (R := fun _ => True) (allEff_loginUser leave_rand leave_now (leave_get _ _) p) allOut_true)
  | changePassword u p =>
    refine fin _ (R := fun _ => True) ?_
    rw [Standalone.changeUserPassword, Prog.bind_eq]
    refine Safe.bind (R := fun o => ∀ x, o = .ok x → out u → OutsiderOk G x) ?_ (fun x hx => ?_) (fun _ _ => trivial) (fun _ => trivial) (fun _ => trivial)
    · refine (shut_getUser u).attempt (fun x hx => ?_) (fun _ _ => by rintro _ ⟨⟩) (fun _ => by rintro _ ⟨⟩) (fun _ => by rintro _ ⟨⟩)
      rintro _ ⟨⟩
      exact hx x rfl
    rw [Prog.bind_eq]
    refine Safe.bind (R := fun o => ∀ r, o = .ok r → r.1.groups = x.groups) ?_ (fun r hr => ?_) (fun _ _ => trivial) (fun _ => trivial) (fun _ => trivial)
    · refine (shut_leave (allEff_changePassword leave_rand x p) (changePassword_groups x p)).attempt (fun r hr => ?_)
        (fun _ _ => by rintro _ ⟨⟩) (fun _ => by rintro _ ⟨⟩) (fun _ => by rintro _ ⟨⟩)
      rintro _ ⟨⟩
      exact hr r rfl
    refine (shut_putUser L hG (fun ho g hg => ?_) true).bind (fun _ _ => trivial) (fun _ _ => trivial) (fun _ => trivial) (fun _ => trivial)
    rw [hr r rfl] at hg
    obtain ⟨h1, h2⟩ := hx x rfl ho g hg
    rwa [h1]
  | newGroup t sc =>
    refine fin _ (R := fun _ => True) ?_
    refine (shut_getIdentity t).bind (fun i hi => ?_) (fun _ _ => trivial) (fun _ => trivial) (fun _ => trivial)
    refine shut_newV4.bind (fun u hu => ?_) (fun _ _ => trivial) (fun _ => trivial) (fun _ => trivial)
    refine (shut_leave (R := fun _ => True) (allEff_putGroup leave_rand (fun _ => leave_type rfl (by decide) (by decide))) allOut_true).bind (fun _ _ => ?_)
      (fun _ _ => trivial) (fun _ => trivial) (fun _ => trivial)
    refine (shut_getUser i.id).bind (fun x hx => ?_) (fun _ _ => trivial) (fun _ => trivial) (fun _ => trivial)
    show Safe _ _ _ ((Prog.ofPanic ((addToSet x.groups [uuidText u]).map fun g => { x with groups := g })).bind _)
    cases ha : addToSet x.groups [uuidText u] with
    | none => trivial
    | some gr =>
      refine (shut_putUser L hG (fun ho g hg => ?_) true).bind (fun _ _ => trivial) (fun _ _ => trivial) (fun _ => trivial) (fun _ => trivial)
      rcases addToSet_sub ha g hg with h | h
      · obtain ⟨h1, h2⟩ := hx x rfl ho g h
        rwa [h1]
      · obtain rfl := List.mem_singleton.mp h
        obtain ⟨tm, b, h0, hb, rfl⟩ := hu u rfl
        rw [sanitize_uuidText]
        exact hdraw tm b h0 hb
  | addUser t u gs =>
    refine fin _ (R := fun _ => True) ?_
    refine (shut_getIdentity t).bind (fun i hi => ?_) (fun _ _ => trivial) (fun _ => trivial) (fun _ => trivial)
    show Safe _ _ _ ((checkMembership i gs).bind _)
    rw [checkMembership]
    split
    swap
    · trivial
    next hm =>
    rw [ret_bind]
    refine (shut_getUser u).bind (fun x hx => ?_) (fun _ _ => trivial) (fun _ => trivial) (fun _ => trivial)
    show Safe _ _ _ ((Prog.ofPanic ((addToSet x.groups gs).map fun g => { x with groups := g })).bind _)
    cases ha : addToSet x.groups gs with
    | none => trivial
    | some gr =>
      refine shut_putUser L hG (fun ho g hg => ?_) true
      rcases addToSet_sub ha g hg with h | h
      · obtain ⟨h1, h2⟩ := hx x rfl ho g h
        rwa [h1]
      · by_cases hby : ByOutsider P s out t
        · have := List.all_eq_true.mp hm g h
          obtain ⟨h1, h2⟩ := (hi i rfl).ids hG hby g (by simpa using this)
          rwa [h1]
        · exact hc ho hby g h
  | removeUser t u gs =>
    refine fin _ (R := fun _ => True) ?_
    refine (shut_getIdentity t).bind (fun i hi => ?_) (fun _ _ => trivial) (fun _ => trivial) (fun _ => trivial)
    refine (shut_leave (R := fun _ => True) (allEff_checkMembership _ _) allOut_true).bind (fun _ _ => ?_) (fun _ _ => trivial) (fun _ => trivial) (fun _ => trivial)
    refine (shut_getUser u).bind (fun x hx => ?_) (fun _ _ => trivial) (fun _ => trivial) (fun _ => trivial)
    refine shut_putUser L hG (fun ho g hg => ?_) true
    obtain ⟨h1, h2⟩ := hx x rfl ho g (removeFromSet_sub g hg)
    rwa [h1]
  | deleteUser t u =>
    exact fin _ (shut_leave (R := fun _ => True) (allEff_deleteUser leave_now (fun _ => leave_get _ _) (fun _ => leave_get _ _) (leave_delete _ _) _) allOut_true)
  | getIdentity t => exact fin _ (shut_getIdentity t)

/-! ### D1 -/

/-- What is read of the access list. -/
def ListOk (G : GoString → Prop) (a : Access) : Prop := ∀ x ∈ a.groups.getD [], sanitize x = x ∧ G x

theorem has_mem {x : GoSet} {g : GoString} : x.has g = true ↔ g ∈ x.getD [] := by
  cases x <;> simp [GoSet.has]

/-- Reading the access record. -/
theorem shut_access : Safe STEP SHUT (fun o => ∀ sa, o = .ok sa → ∀ a, sa.unseal P d.accessCryptor = .ok a → ListOk G a) (getSealedAccess P oid) := by
  rw [getSealedAccess, Prog.bind_eq, ioGet, op_bind]
  intro st r st' h hst
  obtain ⟨rfl, hr⟩ := anyStep_get (r := r) hst.any
  refine ⟨h, ?_⟩
  rcases hr with hr | rfl
  · cases hs : st' oid.1 dtAccess with
    | none => rw [hs] at hr; subst hr; rintro _ ⟨⟩
    | some b =>
      rw [hs] at hr
      subst hr
      simp only [ret_bind]
      cases hu : (P.unmarshal b).bind (SealedAccess.ofJ P) with
      | none => rintro _ ⟨⟩
      | some sa =>
        rintro _ ⟨⟩ a ha
        exact h.2 b a hs ⟨sa, hu, ha⟩
  · rintro _ ⟨⟩

theorem shut_verifyAccess (hd : d.idProvider = s.getIdentity P) (t : GoString) (sc : Scope) :
    Safe STEP SHUT (fun o => ∀ i, o = .ok i → CallerOk P s out G t i) (d.verifyAccess t sc) := by
  rw [D1.verifyAccess, hd]
  refine (shut_getIdentity t).attempt (fun i hi => ?_) (fun _ _ => by rintro _ ⟨⟩) (fun _ => by rintro _ ⟨⟩) (fun _ => by rintro _ ⟨⟩)
  simp only
  split
  · rintro _ ⟨⟩
  · rintro _ ⟨⟩
    exact hi i rfl

theorem refused (hG : ∀ u, out u → sanitize u = u ∧ ¬ G u) {t : GoString} {i : Identity} (hi : CallerOk P s out G t i)
    (hby : ByOutsider P s out t) {sc : Scope} {sa : SealedAccess} (hsa : ∀ a, sa.unseal P d.accessCryptor = .ok a → ListOk G a) (a : Access) :
    d.authorizeAccess P i sc sa ≠ .ok a := by
  intro h
  obtain ⟨h1, x, hx, hm, -⟩ := authorizeAccess_ok.mp h
  exact (hi.ids hG hby x hx).2 (hsa a h1 x (has_mem.mp hm)).2

/-- The guard: it never lets outsiders through. -/
theorem shut_guard (hG : ∀ u, out u → sanitize u = u ∧ ¬ G u) (hd : d.idProvider = s.getIdentity P) (t : GoString) (sc : Scope) :
    Safe STEP SHUT (fun o => ∀ a, o = .ok a → ListOk G a ∧ ¬ ByOutsider P s out t) (guardProg P d t sc oid) := by
  rw [guardProg]
  refine (shut_verifyAccess hd t sc).bind (fun i hi => ?_) (fun _ _ => by rintro _ ⟨⟩) (fun _ => by rintro _ ⟨⟩) (fun _ => by rintro _ ⟨⟩)
  refine shut_access.bind (fun sa hsa => ?_) (fun _ _ => by rintro _ ⟨⟩) (fun _ => by rintro _ ⟨⟩) (fun _ => by rintro _ ⟨⟩)
  cases ha : d.authorizeAccess P i sc sa with
  | error e => rintro _ ⟨⟩
  | ok a =>
    rintro _ ⟨⟩
    exact ⟨hsa sa rfl a (authorizeAccess_ok.mp ha).1, fun hby => refused hG (hi i rfl) hby (hsa sa rfl) a ha⟩

include L in
theorem accepts_sealed {a a' : Access} {k : BytesN 32} {n : BytesN 12} (h : Accepts P d oid (sealedAcc P d oid a k n).toJ.render a') :
    a' = ⟨a.groups.map sanList, a.wrappedDEK⟩ := by
  obtain ⟨sa, h1, h2⟩ := h
  rw [L.unmarshal_render, Option.bind_some, SealedAccess.ofJ_toJ L] at h1
  cases h1
  simp only [sealedAcc, NBytes.bytes, Option.getD_some] at h2
  rw [Cryptor.decrypt_box L, Access.ofJ_toJ] at h2
  cases h2
  rfl

include L in
/-- Writing the access record. -/
theorem shut_putAccess {α : Type} (a : Access) (ha : ∀ x ∈ a.groups.getD [], G (sanitize x)) (f : SealedAccess → Prog α)
    (hf : ∀ sa, AllEff LEAVE (f sa)) :
    Safe STEP SHUT (fun _ => True) ((a.seal P oid d.accessCryptor).bind fun sa => (f sa).bind fun _ => putSealedAccess sa true) := by
  rw [sealAccess_bind]
  refine ((safe_encrypt L d.accessCryptor _ _).anti fun _ _ _ _ h => h.any).bind ?_ (fun _ _ => trivial) (fun h => h.elim) (fun h => h.elim)
  rintro r ⟨k, n, rfl⟩
  refine (shut_leave (R := fun _ => True) (hf _) allOut_true).bind (fun _ _ => ?_) (fun _ _ => trivial) (fun _ => trivial) (fun _ => trivial)
  simp only [putSealedAccess, if_true, ioUpdate]
  intro st r st' h hst
  refine ⟨?_, shut_leave (by cases r <;> trivial) allOut_true⟩
  rcases (anyStep_update (r := r) hst.any).1 with rfl | rfl
  · exact h
  · refine ⟨fun u hu b x hb => h.1 u hu b x ?_, fun b a' hb hacc x hx => ?_⟩
    · rwa [Store.set_other _ _ _ _ _ _ (fun h => absurd h.2 (by decide))] at hb
    · rw [Store.set_same, Option.some.injEq] at hb
      subst hb
      obtain rfl := accepts_sealed L (k := k) (n := n) hacc
      cases hgr : a.groups with
      | none => simp [hgr] at hx
      | some l =>
        simp only [hgr, Option.map_some, Option.getD_some] at hx
        obtain ⟨g', hg', rfl⟩ := (mem_sanList _ _).mp hx
        exact ⟨sanitize_idem _, ha g' (by simpa [hgr] using hg')⟩

theorem leave_identity (t : GoString) : AllEff LEAVE (s.getIdentity P t) := allEff_getIdentity leave_now (fun _ => leave_get _ _) (fun _ => leave_get _ _) t

include L in
/-- The calls of D1. -/
theorem shut_d1 (hG : ∀ u, out u → sanitize u = u ∧ ¬ G u) (hd : d.idProvider = s.getIdentity P)
    (hdraw : ∀ t b, lo ≤ t → env.rand t 16 = some b → mkV4 b ≠ oid) {c : Call}
    (hc : NotLetIn P s oid out G (.d1 c)) : Safe STEP SHUT (fun _ => True) (callProg P d c) := by
  have hi : ∀ t, AllEff LEAVE (d.idProvider t) := fun t => hd ▸ leave_identity t
  have other : ∀ (e : Eff) (dt : DataType) (oid' : Oid), e.dataType = some dt → (dt = dtObject ∨ dt = dtAccess) → e.entry = some oid'.1 → oid' ≠ oid → LEAVE e := by
    intro e dt oid' h1 h2 h3 hne
    refine leave_frame (fun u _ => ?_) ?_
    · cases e <;> simp only [Eff.dataType, Eff.target, Option.some.injEq, ne_eq, reduceCtorEq, not_false_iff, Prod.mk.injEq] at h1 ⊢ <;>
        (rintro ⟨-, rfl⟩; subst h1; revert h2; decide)
    · cases e <;> simp only [Eff.entry, Eff.target, Option.some.injEq, ne_eq, reduceCtorEq, not_false_iff, Prod.mk.injEq] at h3 ⊢ <;>
        (rintro ⟨h, -⟩; exact hne (Subtype.ext (h3.symm.trans h)))
  have fin : ∀ {α β : Type} {R : Outcome α → Prop} {p : Prog α} (k : α → β), Safe STEP SHUT R p → Safe STEP SHUT (fun _ => True) (p.bind fun r => .ret (k r)) :=
    fun k h => h.bind (fun _ _ => trivial) (fun _ _ => trivial) (fun _ => trivial) (fun _ => trivial)
  cases hon : c.onOid with
  | none =>
    cases c <;> simp only [Call.onOid, reduceCtorEq] at hon
    refine fin _ (R := fun _ => True) ?_
    refine (shut_verifyAccess hd _ _).bind (fun i _ => ?_) (fun _ _ => trivial) (fun _ => trivial) (fun _ => trivial)
    refine shut_newV4.bind (fun u hu => ?_) (fun _ _ => trivial) (fun _ => trivial) (fun _ => trivial)
    obtain ⟨t, b, h0, hb, rfl⟩ := hu u rfl
    refine shut_leave ?_ allOut_true
    simp only [Prog.bind_eq, sealObject_bind, sealAccess_bind]
    exact AllEff.bind (allEff_encrypt leave_rand _ _ _) fun r => AllEff.bind (allEff_ofPanic _) fun a =>
      AllEff.bind (allEff_encrypt leave_rand _ _ _) fun r' => AllEff.bind (allEff_ioPut (other _ dtObject _ rfl (.inl rfl) rfl (hdraw t b h0 hb))) fun _ =>
        AllEff.bind (allEff_ioPut (other _ dtAccess _ rfl (.inr rfl) rfl (hdraw t b h0 hb))) fun _ => trivial
  | some oid' =>
    by_cases ho : oid' = oid
    swap
    · exact shut_leave (allEff_call c (hi _) leave_rand fun e dt h1 h2 h3 => other e dt oid' h1 h2 (h3 oid' hon) ho) allOut_true
    subst ho
    have obj : ∀ {e : Eff}, e.dataType = some dtObject → Leave P d s oid' out G e := fun h => leave_type h (by decide) (by decide)
    cases c with
    | encrypt t o gs => cases hon
    | decrypt t o =>
      cases hon
      rw [callProg, decrypt_eq]
      exact shut_leave (AllEff.bind (AllEff.bind (allEff_guardProg (hi _) (leave_get _ _) _) fun a =>
        AllEff.bind (allEff_getSealedObject (leave_get _ _)) fun _ => allEff_ofExcept _) fun _ => trivial) allOut_true
    | getGroups t o =>
      cases hon
      rw [callProg, getAccessGroups_eq]
      exact shut_leave (AllEff.bind (AllEff.bind (allEff_guardProg (hi _) (leave_get _ _) _) fun a => trivial) fun _ => trivial) allOut_true
    | authorize t o =>
      cases hon
      rw [callProg, authorizeIdentity_eq]
      exact shut_leave (AllEff.bind (AllEff.bind (allEff_guardProg (hi _) (leave_get _ _) _) fun a => trivial) fun _ => trivial) allOut_true
    | delete t o =>
      cases hon
      refine shut_leave (AllEff.bind (AllEff.bind (allEff_verifyAccess (hi _) _) fun i => AllEff.attempt (allEff_getSealedAccess (leave_get _ _)) fun r => ?_)
        fun _ => trivial) allOut_true
      rcases r with e | a
      · cases e <;> trivial
      · exact AllEff.bind (allEff_ofExcept _) fun _ => AllEff.bind (allEff_ioDelete (leave_delete _ _)) fun _ => allEff_ioDelete (leave_delete _ _)
    | update t o ob =>
      cases hon
      rw [callProg, update_eq]
      refine fin _ (R := fun _ => True) ?_
      refine (shut_guard hG hd t _).bind (fun a ha => ?_) (fun _ _ => trivial) (fun _ => trivial) (fun _ => trivial)
      rw [sealObject_bind]
      refine (shut_leave (R := fun _ => True) (allEff_encrypt leave_rand _ _ _) allOut_true).bind (fun r _ => ?_) (fun _ _ => trivial) (fun _ => trivial) (fun _ => trivial)
      refine shut_putAccess L ⟨a.groups, some r.1⟩ (fun x hx => ?_) (fun _ => putSealedObject _ true) fun sa => allEff_ioUpdate (obj (e := .update _ dtObject _) rfl)
      obtain ⟨h1, h2⟩ := (ha a rfl).1 x hx
      rwa [h1]
    | addGroups t o gs =>
      cases hon
      rw [callProg, addGroupsToAccess_eq]
      refine fin _ (R := fun _ => True) ?_
      refine (shut_guard hG hd t _).bind (fun a ha => ?_) (fun _ _ => trivial) (fun _ => trivial) (fun _ => trivial)
      obtain ⟨h1, h2⟩ := ha a rfl
      show Safe _ _ _ ((Prog.ofPanic ((addToSet a.groups gs).map fun g => { a with groups := g })).bind _)
      cases hadd : addToSet a.groups gs with
      | none => trivial
      | some gr =>
        refine shut_putAccess L { a with groups := gr } (fun x hx => ?_) (fun _ => .ret ()) fun sa => trivial
        rcases addToSet_sub hadd x hx with h | h
        · obtain ⟨h3, h4⟩ := h1 x h
          rwa [h3]
        · exact hc rfl h2 x h
    | removeGroups t o gs =>
      cases hon
      rw [callProg, removeGroupsFromAccess_eq]
      refine fin _ (R := fun _ => True) ?_
      refine (shut_guard hG hd t _).bind (fun a ha => ?_) (fun _ _ => trivial) (fun _ => trivial) (fun _ => trivial)
      refine shut_putAccess L (a.removeGroups gs) (fun x hx => ?_) (fun _ => .ret ()) fun sa => trivial
      obtain ⟨h1, h2⟩ := (ha a rfl).1 x (removeFromSet_sub x hx)
      rwa [h1]

theorem handsOff_identity (t : GoString) : AllEff HandsOff (s.getIdentity P t) :=
  allEff_getIdentity ⟨rfl, by simp [Eff.dataType]⟩ (fun _ => ⟨rfl, by simp [Eff.dataType]; decide⟩) (fun _ => ⟨rfl, by simp [Eff.dataType]; decide⟩) t

/-- A call of an outsider on the object. -/
theorem shut_outsider (hG : ∀ u, out u → sanitize u = u ∧ ¬ G u) (hd : d.idProvider = s.getIdentity P) {c : Call} (hc : c.onOid = some oid)
    (hby : ByOutsider P s out c.token) :
    Within STEP SHUT HandsOff (fun o => ∀ r, o = .ok r → ∃ t, c = .delete t oid) (callProg P d c) := by
  have hacc : HandsOff (.get oid.1 dtAccess) := ⟨rfl, by simp [Eff.dataType]; decide⟩
  have guard : ∀ {α : Type} {R : Outcome α → Prop} (t : GoString) (ht : ByOutsider P s out t) (sc : Scope) (K : Access → Prog α)
      (hR : ∀ o : Outcome α, (∀ r, o ≠ .ok r) → R o), Within STEP SHUT HandsOff R ((guardProg P d t sc oid).bind K) := by
    intro α R t ht sc K hR
    refine ((shut_guard hG hd t sc).within (allEff_guardProg (hd ▸ handsOff_identity t) hacc sc)).bind
      (fun a ha => absurd ht (ha a rfl).2) (fun e _ => hR _ (by simp)) (fun _ => hR _ (by simp)) (fun _ => hR _ (by simp))
  have bad : ∀ o : Outcome Res, (∀ r, o ≠ .ok r) → ∀ r, o = .ok r → ∃ t, c = .delete t oid := fun o h r hr => absurd hr (h r)
  cases c with
  | encrypt t o gs => cases hc
  | decrypt t o => cases hc; rw [callProg, decrypt_eq, Prog.bind_assoc]; exact guard t hby _ _ bad
  | getGroups t o => cases hc; rw [callProg, getAccessGroups_eq, Prog.bind_assoc]; exact guard t hby _ _ bad
  | authorize t o => cases hc; rw [callProg, authorizeIdentity_eq, Prog.bind_assoc]; exact guard t hby _ _ bad
  | update t o ob => cases hc; rw [callProg, update_eq, Prog.bind_assoc]; exact guard t hby _ _ bad
  | addGroups t o gs => cases hc; rw [callProg, addGroupsToAccess_eq, Prog.bind_assoc]; exact guard t hby _ _ bad
  | removeGroups t o gs => cases hc; rw [callProg, removeGroupsFromAccess_eq, Prog.bind_assoc]; exact guard t hby _ _ bad
  | delete t o =>
    cases hc
    rw [callProg, D1.delete, Prog.bind_eq, Prog.bind_assoc]
    refine ((shut_verifyAccess hd t _).within (allEff_verifyAccess (hd ▸ handsOff_identity t) _)).bind (fun i hi => ?_) (fun _ _ _ _ => ⟨t, rfl⟩)
      (fun _ _ _ => ⟨t, rfl⟩) (fun _ _ _ => ⟨t, rfl⟩)
    refine Within.bind (R := fun _ => True) ?_ (fun _ _ _ _ => ⟨t, rfl⟩) (fun _ _ _ _ => ⟨t, rfl⟩) (fun _ _ _ => ⟨t, rfl⟩) (fun _ _ _ => ⟨t, rfl⟩)
    refine (shut_access.within (allEff_getSealedAccess hacc)).attempt (fun sa hsa => ?_) (fun e _ => ?_) (fun _ => trivial) (fun _ => trivial)
    · cases ha : d.authorizeAccess P i scopeDelete sa with
      | error e => simp only [ha]; trivial
      | ok a => exact absurd ha (refused hG (hi i rfl) hby (hsa sa rfl) a)
    · cases e <;> trivial

include L in
theorem shut_api (hG : ∀ u, out u → sanitize u = u ∧ ¬ G u) (hd : d.idProvider = s.getIdentity P) (hi : i.idProvider = s.getIdentity P)
    (hdraw : ∀ t b, lo ≤ t → env.rand t 16 = some b → ¬ G (newName b) ∧ mkV4 b ≠ oid) {c : ApiCall}
    (hc : NotLetIn P s oid out G c) : Safe STEP SHUT (fun _ => True) (apiProg P d i s c) := by
  have fin : ∀ {α β : Type} {R : Outcome α → Prop} {p : Prog α} (k : α → β), Safe STEP SHUT R p → Safe STEP SHUT (fun _ => True) (p.bind fun r => .ret (k r)) :=
    fun k h => h.bind (fun _ _ => trivial) (fun _ _ => trivial) (fun _ => trivial) (fun _ => trivial)
  cases c with
  | d1 c => exact fin _ (shut_d1 L hG hd (fun t b h0 h => (hdraw t b h0 h).2) hc)
  | dir c => exact fin _ (shut_dir L hG (fun t b h0 h => (hdraw t b h0 h).1) hc)
  | createToken p =>
    refine fin _ (shut_leave (R := fun _ => True) ?_ allOut_true)
    exact AllEff.bind (AllEff.bind (allEff_now leave_now) fun _ => trivial) fun _ => AllEff.bind (allEff_encrypt leave_rand _ _ _) fun _ => trivial
  | tokenContents t =>
    exact fin _ (shut_leave (R := fun _ => True) (AllEff.bind (allEff_tokenUnseal leave_now _ _) fun _ => trivial) allOut_true)
  | index fuel c =>
    refine fin _ (shut_leave (R := fun _ => True) ?_ allOut_true)
    have hn : ∀ e : Eff, e.dataType = some dtNode → LEAVE e := fun e h => leave_type h (by decide) (by decide)
    have hi' : ∀ t, AllEff LEAVE (i.idProvider t) := fun t => hi ▸ leave_identity t
    cases c with
    | add t kw x => exact AllEff.bind (allEff_add (hi' _) leave_rand hn _ _ _) fun _ => trivial
    | search t kw => exact AllEff.bind (allEff_search (hi' _) (fun _ => hn _ rfl) _ _) fun _ => trivial
    | delete t kw x => exact AllEff.bind (allEff_delete (hi' _) leave_rand hn _ _ _) fun _ => trivial

include L in
/-- C85.  D1 and the index identify their callers with the Standalone provider.  At the start no outsider holds an ID out of `G`, and all IDs on the
access list of the object are in `G`; names that are drawn are new.  Any calls of the whole library run concurrently, with any IO failures and
crashes; outsiders may call anything, others share the object only with `G` and add outsiders only to groups outside `G`.  Then no call that an
outsider makes on the object succeeds, but for a `Delete` of an object that is gone; none writes anything or so much as reads the object record;
and at the end it is still so that no outsider holds an ID on the access list. -/
theorem C85_shut_out (hd : d.idProvider = s.getIdentity P) (hi : i.idProvider = s.getIdentity P)
    (hG : ∀ u, out u → sanitize u = u ∧ ¬ G u) {w : World} (h0 : ShutOut P d s oid out G w.store)
    (hdraw : ∀ t b, w.t ≤ t → env.rand t 16 = some b → ¬ G (newName b) ∧ mkV4 b ≠ oid) (calls : List ApiCall) (hc : ∀ c ∈ calls, NotLetIn P s oid out G c)
    (sch : List Nat) :
    ShutOut P d s oid out G (sched env sch w (calls.map (apiProg P d i s))).1.store ∧
    ∀ (j : Nat) (c : Call), calls[j]? = some (ApiCall.d1 c) → c.onOid = some oid → ByOutsider P s out c.token →
      ((j, Outcome.ok ()) ∈ commits env sch w (calls.map (apiProg P d i s)) → ∃ t, c = .delete t oid) ∧
      ∀ e, (j, e) ∈ performed env sch w (calls.map (apiProg P d i s)) → HandsOff e := by
  have key := Within.sched (env := env) (lo := w.t) (I := ShutOut P d s oid out G)
    (E := fun j e => ∀ c : Call, calls[j]? = some (ApiCall.d1 c) → c.onOid = some oid → ByOutsider P s out c.token → HandsOff e)
    (R := fun j o => ∀ c : Call, calls[j]? = some (ApiCall.d1 c) → c.onOid = some oid → ByOutsider P s out c.token → o = .ok () → ∃ t, c = .delete t oid)
    sch (w := w) (ps := calls.map (apiProg P d i s)) le_rfl h0 fun j p hp => by
      rw [List.getElem?_map, Option.map_eq_some_iff] at hp
      obtain ⟨c, hj, rfl⟩ := hp
      by_cases hx : ∃ c' : Call, c = .d1 c' ∧ c'.onOid = some oid ∧ ByOutsider P s out c'.token
      · obtain ⟨c', rfl, h1, h2⟩ := hx
        refine Within.bind (p := callProg P d c') (R := fun o => ∀ r, o = .ok r → ∃ t, c' = .delete t oid) ?_ (fun r hr => ?_) (fun _ _ _ _ _ _ => by rintro ⟨⟩)
          (fun _ _ _ _ _ => by rintro ⟨⟩) (fun _ _ _ _ _ => by rintro ⟨⟩)
        · exact (shut_outsider hG hd h1 h2).mono fun e he c hc _ _ => he
        · rintro c hc - - -
          rw [hj] at hc
          cases hc
          exact hr r rfl
      · refine ((shut_api L hG hd hi hdraw (hc c (List.mem_of_getElem? hj))).mono fun o _ => ?_).within ?_
        · intro c' hc' h1 h2
          rw [hj] at hc'
          exact absurd ⟨c', Option.some.inj hc', h1, h2⟩ hx
        · refine allEff_true.mono fun e _ => ?_
          intro c' hc' h1 h2
          rw [hj] at hc'
          exact absurd ⟨c', Option.some.inj hc', h1, h2⟩ hx
  exact ⟨key.1, fun j c h1 h2 h3 => ⟨fun hm => key.2.1 j _ hm c h1 h2 h3 rfl, fun e he => key.2.2 j e he c h1 h2 h3⟩⟩

/-- The initial condition in terms of the directory and the vault. -/
theorem shutOut_of_rel (L : P.Laws) {st : Store} {v : Dir × Vault} (h : SysRel P d s st v)
    (h1 : ∀ u, out u → ∀ x, v.1.users u = some x → ∀ g ∈ x.groups, ¬ G g) (h2 : ∀ e, v.2 oid = some e → ∀ x, e.members x = true → G x) :
    ShutOut P d s oid out G st := by
  refine ⟨fun u hu b x hb hx g hg => ?_, fun b a hb ha x hx => ?_⟩
  · have hrel := h.1.1 u
    cases hv : v.1.users u with
    | none =>
      rw [hv] at hrel
      rw [show st u dtUser = none from hrel] at hb
      cases hb
    | some du =>
      rw [hv] at hrel
      obtain ⟨hash, k, n, hst, -, q1, q2, q3⟩ := hrel
      rw [hst, Option.some.injEq] at hb
      subst hb
      obtain rfl := holdsUser_sealed L q1 hx
      simp only [Option.map_some, Option.getD_some, sanList_id q2 q3] at hg
      exact ⟨q3 g hg, h1 u hu du hv g hg⟩
  · have hrel := h.2 oid
    cases hv : v.2 oid with
    | none =>
      rw [hv] at hrel
      rw [hrel.2] at hb
      cases hb
    | some e =>
      rw [hv] at hrel
      obtain ⟨a', ⟨l, dk, k, n, hst, rfl⟩, -, hm⟩ := hrel
      rw [hst, Option.some.injEq] at hb
      subst hb
      obtain rfl := accepts_sealed L ha
      refine ⟨mem_sanList_san _ _ hx, h2 e hv x ?_⟩
      rw [← hm]
      exact has_mem.mpr hx

include L in
/-- C85 in terms of the directory and the vault: the object is stored, and neither an outsider nor any of its groups is on its access list. -/
theorem C85_outsiders (hd : d.idProvider = s.getIdentity P) (hi : i.idProvider = s.getIdentity P) {w : World} {v : Dir × Vault}
    (h : SysRel P d s w.store v) {e : Entry} (he : v.2 oid = some e) {out : GoString → Prop}
    (hout : ∀ u, out u → sanitize u = u ∧ e.members u = false ∧ ∀ x, v.1.users u = some x → ∀ g ∈ x.groups, e.members g = false)
    (hdraw : ∀ t b, w.t ≤ t → env.rand t 16 = some b → e.members (newName b) = false ∧ mkV4 b ≠ oid)
    (calls : List ApiCall)
    (hshare : ∀ t gs, .d1 (.addGroups t oid gs) ∈ calls → ByOutsider P s out t ∨ ∀ g ∈ gs, e.members (sanitize g) = true)
    (hadd : ∀ t u gs, out u → .dir (.addUser t u gs) ∈ calls → ByOutsider P s out t ∨ ∀ g ∈ gs, e.members (sanitize g) = false)
    (sch : List Nat) (j : Nat) (c : Call) (hj : calls[j]? = some (ApiCall.d1 c)) (hc : c.onOid = some oid) (hby : ByOutsider P s out c.token) :
    ((j, Outcome.ok ()) ∈ commits env sch w (calls.map (apiProg P d i s)) → ∃ t, c = .delete t oid) ∧
      ∀ e, (j, e) ∈ performed env sch w (calls.map (apiProg P d i s)) → HandsOff e := by
  have hb : ∀ {x}, e.members x = false → ¬ e.members x = true := by simp
  refine (C85_shut_out L hd hi (G := fun x => e.members x = true) (fun u hu => ⟨(hout u hu).1, hb (hout u hu).2.1⟩)
    (shutOut_of_rel L h (fun u hu x hx g hg => hb ((hout u hu).2.2 x hx g hg)) (fun e' he' x hx => ?_))
    (fun t b h0 hr => ⟨hb (hdraw t b h0 hr).1, (hdraw t b h0 hr).2⟩) calls (fun c' hc' => ?_) sch).2 j c hj hc hby
  · rw [he] at he'
    cases he'
    exact hx
  · cases c' with
    | d1 c' =>
      cases c' with
      | addGroups t oid' gs => rintro rfl hn; exact (hshare t gs hc').resolve_left hn
      | _ => trivial
    | dir c' =>
      cases c' with
      | addUser t u gs => exact fun hu hn g hg => hb ((hadd t u gs hu hc').resolve_left hn g hg)
      | _ => trivial
    | _ => trivial

include L in
/-- C85, revocation: `RemoveUserFromGroups` has succeeded, and neither the user nor a group that it is still in is on the access list of the
object.  From then on, whatever is called concurrently, the user's calls on the object fail and leave it alone, unless somebody else lets the user
in again. -/
theorem C85_revoked (hd : d.idProvider = s.getIdentity P) (hi : i.idProvider = s.getIdentity P) (hf : NoFault env) (hr : RandOk env)
    {w w1 : World} {v : Dir × Vault} (h : SysRel P d s w.store v) {admin uid : GoString} {gids : List GoString}
    (hrem : (s.removeUserFromGroups P admin uid gids).run env w = (.ok (), w1))
    {u : DirUser} (hu : v.1.users uid = some u) {e : Entry} (he : v.2 oid = some e) (hm : e.members uid = false)
    (hg : ∀ g ∈ u.groups, e.members g = true → g ∈ gids)
    {env' : Env} (hdraw : ∀ t b, w1.t ≤ t → env'.rand t 16 = some b → e.members (newName b) = false ∧ mkV4 b ≠ oid) (calls : List ApiCall)
    (hshare : ∀ t gs, .d1 (.addGroups t oid gs) ∈ calls → Names P s t uid ∨ ∀ g ∈ gs, e.members (sanitize g) = true)
    (hadd : ∀ t gs, .dir (.addUser t uid gs) ∈ calls → Names P s t uid ∨ ∀ g ∈ gs, e.members (sanitize g) = false)
    (sch : List Nat) (j : Nat) (c : Call) (hj : calls[j]? = some (ApiCall.d1 c)) (hc : c.onOid = some oid) (hby : Names P s c.token uid) :
    ((j, Outcome.ok ()) ∈ commits env' sch w1 (calls.map (apiProg P d i s)) → ∃ t, c = .delete t oid) ∧
      ∀ e, (j, e) ∈ performed env' sch w1 (calls.map (apiProg P d i s)) → HandsOff e := by
  obtain ⟨w2, h1, h2, h3⟩ := run_dirCall L hf hr h.1 (.removeUser admin uid gids)
  simp only [dirProg] at h1
  rw [Prog.run_bind_ok env hrem] at h1
  simp only [run_ret, Prod.mk.injEq] at h1
  obtain ⟨h1, rfl⟩ := h1
  have hstep : (dirStep v.1 (dirIn P s env w (.removeUser admin uid gids)) (.removeUser admin uid gids)).2 =
      v.1.setUser uid (some { u with groups := u.groups.filter fun g => !gids.contains g }) := by
    revert h1
    simp only [dirStep, Dir.asCaller]
    split
    · simp [toOutcome]
    · rw [hu]
      split
      · intro _; rfl
      · simp [toOutcome]
  rw [hstep] at h2
  have huid : sanitize uid = uid := by
    have hrel := h.1.1 uid
    rw [hu] at hrel
    obtain ⟨_, _, _, _, _, q, _⟩ := hrel
    exact q
  have by' : ∀ {t}, Names P s t uid → ByOutsider P s (· = uid) t := fun hn => ⟨uid, rfl, hn⟩
  refine C85_outsiders L hd hi (v := (_, v.2)) ⟨h2, Rel.congr h3 h.2⟩ he (out := (· = uid)) ?_ hdraw calls
    (fun t gs hc => (hshare t gs hc).imp_left by') (fun t u gs hu hc => by cases hu; exact (hadd t gs hc).imp_left by') sch j c hj hc (by' hby)
  rintro _ rfl
  refine ⟨huid, hm, fun x hx g hgx => ?_⟩
  simp only [if_true, Option.some.injEq] at hx
  subst hx
  obtain ⟨h4, h5⟩ := List.mem_filter.mp hgx
  cases hmg : e.members g with
  | false => rfl
  | true => simp [hg g h4 hmg] at h5

end

end D1
