import Verif.Proofs.DirRun
import Verif.Props.Linear
/-!
# Concurrent calls of the Standalone provider: C71

Two calls conflict if one writes the record of a user that the other relies on: its target, or, for calls that need a token and change
something, the caller.  If conflicting calls are never in progress at the same time, the calls are linearizable.
-/
namespace D1
open Spec Prog

section
variable (P : Prims) (s : Standalone)

/-- The token names the user at some instant. -/
def Names (token uid : GoString) : Prop := ∃ now, tokenUser P s.tokenCryptor token now = some uid

/-- The call changes or deletes the record of the user. -/
def DirWrites : DirCall → GoString → Prop
  | .changePassword u _, uid | .addUser _ u _, uid | .removeUser _ u _, uid | .deleteUser _ u, uid => uid = u
  | .newGroup t _, uid => Names P s t uid
  | _, _ => False

/-- The call changes something on the strength of what the record of the user says. -/
def DirUses : DirCall → GoString → Prop
  | .changePassword u _, uid => uid = u
  | .addUser t u _, uid | .removeUser t u _, uid | .deleteUser t u, uid => uid = u ∨ Names P s t uid
  | .newGroup t _, uid => Names P s t uid
  | _, _ => False

/-- The calls must not overlap. -/
def DirConflict (a b : DirCall) : Prop := ∃ uid, (DirWrites P s a uid ∧ DirUses P s b uid) ∨ (DirUses P s a uid ∧ DirWrites P s b uid)

/-- The name made from drawn bytes. -/
def newName (b : BytesN 16) : GoString := uuidText (mkV4 b)

/-- Which passwords a record with this salt made for a password accepts. -/
def acceptsWith (salt : Bytes) (password p : GoString) : Bool := decide (P.pbkdf2 p salt = P.pbkdf2 password salt)

/-- One call of the directory between two moments: the token is judged at an instant, a new token is made at an instant, and a new password
and salt are drawn; names that are drawn are new. -/
def DirStep (env : Env) (lo hi : Nat) (c : DirCall) (v : Dir) (out : Outcome DirRes) (v' : Dir) : Prop :=
  ∃ inp : DirIn, (∃ t, lo ≤ t ∧ t < hi ∧ inp.who = tokenUser P s.tokenCryptor c.token (env.now t).ns) ∧
    (∃ t, lo ≤ t ∧ t < hi ∧ inp.now = (env.now t).ns) ∧
    (∃ t t', lo ≤ t ∧ t < hi ∧ lo ≤ t' ∧ t' < hi ∧ inp.password = b64Enc true (drawn env t passwordLength).1 ∧
      inp.accepts = acceptsWith P (drawn env t' saltLength).1 inp.password) ∧
    out ≠ .err .userAlreadyExists ∧ out ≠ .err .groupAlreadyExists ∧
    out = toOutcome (dirStep v inp c).1 ∧ v' = (dirStep v inp c).2

/-- The names that can be drawn between two moments are different, and not in use. -/
def FreshNames (env : Env) (v : Dir) (lo hi : Nat) : Prop := ∀ t b, lo ≤ t → t < hi → env.rand t 16 = some b →
  v.users (newName b) = none ∧ v.groups (newName b) = none ∧ (∀ uid u, v.users uid = some u → newName b ∉ u.groups) ∧
  ∀ t' b', t < t' → t' < hi → env.rand t' 16 = some b' → newName b ≠ newName b'

end

/-- Ghost state: the directory, the names ever used, which name each call has drawn, and on which users' records it counts. -/
structure DirGhost where
  v : Dir
  used : GoString → Prop
  pend : Nat → Option GoString
  rd : Nat → List GoString

def DirGhost.holds (g : DirGhost) (i : Nat) : Prop := g.pend i ≠ none ∨ g.rd i ≠ []

def DirGhost.hold (g : DirGhost) (j : Nat) (p : Option GoString) (r : List GoString) : DirGhost :=
  { g with pend := fun i => if i = j then p else g.pend i, rd := fun i => if i = j then r else g.rd i }

/-- Call `j` takes effect and lets go of everything. -/
def DirGhost.commit (g : DirGhost) (j : Nat) (v : Dir) : DirGhost :=
  ⟨v, fun id => g.used id ∨ g.pend j = some id, fun i => if i = j then none else g.pend i, fun i => if i = j then [] else g.rd i⟩

section
variable (P : Prims) (s : Standalone) (env : Env) (calls : List DirCall) (lo hi : Nat)

structure DirInv (g : DirGhost) (w : World) : Prop where
  users : ∀ uid, UserRel P s w.store uid (g.v.users uid)
  groups : ∀ gid, (∀ i, g.pend i ≠ some gid) → GroupRel P s w.store gid (g.v.groups gid)
  named : ∀ uid u, g.v.users uid = some u → g.used uid ∧ ∀ x ∈ u.groups, g.used x
  existing : ∀ gid, g.v.groups gid ≠ none → g.used gid
  pend : ∀ i id, g.pend i = some id → ¬ g.used id ∧ (w.store id dtGroup = none ∨ ∃ t sc, calls[i]? = some (.newGroup t sc)) ∧
    ∀ i', g.pend i' = some id → i' = i
  rd : ∀ i, ∀ uid ∈ g.rd i, g.used uid ∧ ∃ c, calls[i]? = some c ∧ DirUses P s c uid
  late : lo ≤ w.t
  fresh : ∀ t b, w.t ≤ t → t < hi → env.rand t 16 = some b → (¬ g.used (newName b) ∧ ∀ i, g.pend i ≠ some (newName b)) ∧
    ∀ t' b', t < t' → t' < hi → env.rand t' 16 = some b' → newName b ≠ newName b'

structure DirRely (j : Nat) (g : DirGhost) (st : Store) (g' : DirGhost) (st' : Store) : Prop where
  pend : g'.pend j = g.pend j
  rd : g'.rd j = g.rd j
  mine : ∀ id, g.pend j = some id → st' id dtGroup = st id dtGroup
  user : ∀ uid ∈ g.rd j, g'.v.users uid = g.v.users uid
  used : ∀ id, g.used id → g'.used id ∧ g'.v.groups id = g.v.groups id

theorem DirRely.refl (j : Nat) (g : DirGhost) (st : Store) : DirRely j g st g st :=
  ⟨rfl, rfl, fun _ _ => rfl, fun _ _ => rfl, fun _ h => ⟨h, rfl⟩⟩

theorem DirRely.trans {j : Nat} {g g' g'' : DirGhost} {st st' st'' : Store} (h1 : DirRely j g st g' st') (h2 : DirRely j g' st' g'' st'') :
    DirRely j g st g'' st'' :=
  ⟨h2.pend.trans h1.pend, h2.rd.trans h1.rd,
    fun id h => (h2.mine id (h1.pend.trans h)).trans (h1.mine id h),
    fun uid h => (h2.user uid (h1.rd ▸ h)).trans (h1.user uid h),
    fun id h => ⟨(h2.used id (h1.used id h).1).1, (h2.used id (h1.used id h).1).2.trans (h1.used id h).2⟩⟩

def dirRules : LinRules DirGhost Dir DirRes where
  env := env
  limit := hi
  inv := DirInv P s env calls lo hi
  rely j g w g' w' := DirRely j g w.store g' w'.store
  refl j g w := DirRely.refl j g _
  trans h1 h2 := h1.trans h2
  holds := DirGhost.holds
  holds_iff h := by unfold DirGhost.holds; rw [h.pend, h.rd]
  conflict i j := ∃ a b, calls[i]? = some a ∧ calls[j]? = some b ∧ DirConflict P s a b
  abs := DirGhost.v
  lin j v o v' := ∃ c, calls[j]? = some c ∧ DirStep P s env lo hi c v o v'

end

section
variable {P : Prims} (L : P.Laws) {s : Standalone} {env : Env} {calls : List DirCall} {lo hi : Nat} {j : Nat} {c : DirCall}

local notation "DR" => dirRules P s env calls lo hi
local notation "INV" => DirInv P s env calls lo hi

theorem DirGhost.hold_self (g : DirGhost) (j : Nat) : g.hold j (g.pend j) (g.rd j) = g := by
  have h1 : (fun i => if i = j then g.pend j else g.pend i) = g.pend := by
    funext i; split
    · next h => rw [h]
    · rfl
  have h2 : (fun i => if i = j then g.rd j else g.rd i) = g.rd := by
    funext i; split
    · next h => rw [h]
    · rfl
  rw [DirGhost.hold, h1, h2]

/-- An effect on nothing that matters; the call may count on other users from then on. -/
theorem dir_quiet {g : DirGhost} {w w' : World} (hinv : INV g w) (ht : w'.t = w.t + 1)
    (hs : ∀ x, w'.store x dtUser = w.store x dtUser ∧ w'.store x dtGroup = w.store x dtGroup) (hc : calls[j]? = some c)
    {r : List GoString} (hr : ∀ uid ∈ r, g.used uid ∧ DirUses P s c uid) {p : Option GoString} (hp : p = g.pend j) :
    INV (g.hold j p r) w' ∧ ∀ i, i ≠ j → DirRely i g w.store (g.hold j p r) w'.store := by
  have hpe : (g.hold j p r).pend = g.pend := by
    subst hp
    funext i
    simp only [DirGhost.hold]
    split
    · next h => rw [h]
    · rfl
  refine ⟨⟨fun uid => (hinv.users uid).congr (hs uid).1, fun gid h => ?_, hinv.named, hinv.existing, fun i id h => ?_, fun i uid h => ?_,
    by have := hinv.late; omega, fun t b h1 h2 h3 => ?_⟩, fun i hi => ⟨?_, ?_, fun id _ => (hs id).2, fun _ _ => rfl, fun id h => ⟨h, rfl⟩⟩⟩
  · rw [hpe] at h
    exact (hinv.groups gid h).congr (hs gid).2
  · rw [hpe] at h ⊢
    rw [(hs id).2]
    exact hinv.pend i id h
  · simp only [DirGhost.hold] at h
    split at h
    · next hij => subst hij; exact ⟨(hr uid h).1, c, hc, (hr uid h).2⟩
    · exact hinv.rd i uid h
  · rw [hpe]
    exact hinv.fresh t b (by omega) h2 h3
  · rw [hpe]
  · simp only [DirGhost.hold, if_neg hi]

/-- An effect on nothing that matters. -/
theorem dir_still {g : DirGhost} {w w' : World} (hinv : INV g w) (ht : w'.t = w.t + 1)
    (hs : ∀ x, w'.store x dtUser = w.store x dtUser ∧ w'.store x dtGroup = w.store x dtGroup) :
    INV g w' ∧ ∀ i, DirRely i g w.store g w'.store :=
  ⟨⟨fun uid => (hinv.users uid).congr (hs uid).1, fun gid h => (hinv.groups gid h).congr (hs gid).2, hinv.named, hinv.existing,
    fun i id h => (hs id).2 ▸ hinv.pend i id h, hinv.rd, by have := hinv.late; omega, fun t b h1 => hinv.fresh t b (by omega)⟩,
    fun _ => ⟨rfl, rfl, fun id _ => (hs id).2, fun _ _ => rfl, fun _ h => ⟨h, rfl⟩⟩⟩

theorem DirInv.unused {g : DirGhost} {w : World} (hinv : INV g w) {id : GoString} (h : ¬ g.used id) :
    g.v.users id = none ∧ g.v.groups id = none := by
  constructor
  · cases hu : g.v.users id with
    | none => rfl
    | some u => exact absurd (hinv.named id u hu).1 h
  · by_contra hg
    exact h (hinv.existing id hg)

/-- A name is drawn. -/
theorem dir_reserve {g : DirGhost} {w : World} (hinv : INV g w) (hp : g.pend j = none) (ht : w.t < hi) {b : BytesN 16}
    (hb : env.rand w.t 16 = some b) :
    INV (g.hold j (some (newName b)) (g.rd j)) ⟨w.store, w.t + 1⟩ ∧
      ∀ i, i ≠ j → DirRely i g w.store (g.hold j (some (newName b)) (g.rd j)) w.store := by
  obtain ⟨⟨hf1, hf2⟩, hf3⟩ := hinv.fresh w.t b (Nat.le_refl _) ht hb
  have hpj : (g.hold j (some (newName b)) (g.rd j)).pend j = some (newName b) := by simp [DirGhost.hold]
  have hpn : ∀ i, i ≠ j → (g.hold j (some (newName b)) (g.rd j)).pend i = g.pend i := fun i hi => by simp [DirGhost.hold, hi]
  refine ⟨⟨hinv.users, fun gid h => ?_, hinv.named, hinv.existing, fun i id h => ?_, fun i uid h => ?_,
    Nat.le_succ_of_le hinv.late, fun t b' h1 h2 h3 => ?_⟩, fun i hi => ⟨hpn i hi, ?_, fun _ _ => rfl, fun _ _ => rfl, fun id h => ⟨h, rfl⟩⟩⟩
  · refine hinv.groups gid fun i hi => ?_
    by_cases hij : i = j
    · subst hij; rw [hp] at hi; cases hi
    · exact h i ((hpn i hij).trans hi)
  · by_cases hij : i = j
    · subst hij
      rw [hpj] at h
      cases h
      refine ⟨hf1, .inl ?_, fun i' h' => ?_⟩
      · have := hinv.groups (newName b) hf2
        rw [(hinv.unused hf1).2] at this
        exact this
      · by_contra hn
        rw [hpn i' hn] at h'
        exact hf2 i' h'
    · rw [hpn i hij] at h
      obtain ⟨h1, h2, h3⟩ := hinv.pend i id h
      refine ⟨h1, h2, fun i' h' => ?_⟩
      by_cases hij' : i' = j
      · subst hij'
        rw [hpj] at h'
        cases h'
        exact absurd h (hf2 i)
      · rw [hpn i' hij'] at h'
        exact h3 i' h'
  · refine hinv.rd i uid ?_
    simp only [DirGhost.hold] at h
    split at h
    · next hij => rw [hij]; exact h
    · exact h
  · have h1' : w.t < t := h1
    obtain ⟨⟨k1, k2⟩, k3⟩ := hinv.fresh t b' (by omega) h2 h3
    refine ⟨⟨k1, fun i hi => ?_⟩, k3⟩
    by_cases hij : i = j
    · subst hij
      rw [hpj] at hi
      exact hf3 t b' h1' h2 h3 (Option.some.inj hi)
    · rw [hpn i hij] at hi
      exact k2 i hi
  · simp [DirGhost.hold, hi]

/-- The record of a group with a drawn name is written. -/
theorem dir_putGroup {g : DirGhost} {w : World} (hinv : INV g w) {t : GoString} {sc : List Scope} (hc : calls[j]? = some (.newGroup t sc))
    {id : GoString} (hp : g.pend j = some id) (x : Option Bytes) :
    INV g ⟨w.store.set id dtGroup x, w.t + 1⟩ ∧ ∀ i, i ≠ j → DirRely i g w.store g (w.store.set id dtGroup x) := by
  have hu : ∀ y, w.store.set id dtGroup x y dtUser = w.store y dtUser := fun y =>
    Store.set_other _ _ _ _ _ _ (by simp [dtUser, dtGroup, dtEnd])
  have hg : ∀ y, y ≠ id → w.store.set id dtGroup x y dtGroup = w.store y dtGroup := fun y hy =>
    Store.set_other _ _ _ _ _ _ (by simp [hy])
  refine ⟨⟨fun uid => (hinv.users uid).congr (hu uid), fun gid h => ?_, hinv.named, hinv.existing, fun i y h => ?_, hinv.rd,
    Nat.le_succ_of_le hinv.late, fun t b h1 => hinv.fresh t b (Nat.le_of_succ_le h1)⟩,
    fun i hi => ⟨rfl, rfl, fun y hy => hg y ?_, fun _ _ => rfl, fun _ h => ⟨h, rfl⟩⟩⟩
  · refine (hinv.groups gid h).congr (hg gid ?_)
    rintro rfl
    exact h j hp
  · obtain ⟨h1, h2, h3⟩ := hinv.pend i y h
    refine ⟨h1, ?_, h3⟩
    by_cases hy : y = id
    · subst hy
      rw [h3 j hp] at hc
      exact .inr ⟨t, sc, hc⟩
    · exact h2.imp (fun h => (hg y hy).trans h) fun h => h
  · rintro rfl
    exact hi ((hinv.pend j y hp).2.2 i hy)

/-- The record of a user is written or deleted: the call takes effect. -/
theorem dir_commit {g : DirGhost} {w : World} (hinv : INV g w) {uid : GoString} {x : Option Bytes} {u : Option DirUser} {v : Dir}
    (hv : ∀ y, v.users y = if y = uid then u else g.v.users y) (hU : UserRel P s (w.store.set uid dtUser x) uid u)
    (hG : ∀ id, g.pend j ≠ some id → v.groups id = g.v.groups id) (hP : ∀ id, g.pend j = some id → GroupRel P s w.store id (v.groups id))
    (hused : ∀ y, u = some y → (g.used uid ∨ g.pend j = some uid) ∧ ∀ z ∈ y.groups, g.used z ∨ g.pend j = some z)
    (hlock : ∀ i, i ≠ j → uid ∉ g.rd i) :
    INV (g.commit j v) ⟨w.store.set uid dtUser x, w.t + 1⟩ ∧
      ∀ i, i ≠ j → DirRely i g w.store (g.commit j v) (w.store.set uid dtUser x) := by
  have hg : ∀ y, w.store.set uid dtUser x y dtGroup = w.store y dtGroup := fun y =>
    Store.set_other _ _ _ _ _ _ (by simp [dtUser, dtGroup, dtEnd])
  have hpn : ∀ i, i ≠ j → (g.commit j v).pend i = g.pend i := fun i hi => by simp [DirGhost.commit, hi]
  have hpj : (g.commit j v).pend j = none := by simp [DirGhost.commit]
  refine ⟨⟨fun y => ?_, fun gid h => ?_, fun y z h => ?_, fun gid h => ?_, fun i id h => ?_, fun i y h => ?_,
    Nat.le_succ_of_le hinv.late, fun t b h1 h2 h3 => ?_⟩, fun i hi => ⟨hpn i hi, by simp [DirGhost.commit, hi], fun id _ => hg id, fun y hy => ?_,
      fun id h => ⟨.inl h, ?_⟩⟩⟩
  · show UserRel P s _ y (v.users y)
    rw [hv y]
    by_cases hy : y = uid
    · subst hy; rw [if_pos rfl]; exact hU
    · rw [if_neg hy]
      exact (hinv.users y).congr (Store.set_other _ _ _ _ _ _ (by simp [hy]))
  · show GroupRel P s _ gid (v.groups gid)
    refine GroupRel.congr (hg gid) ?_
    by_cases hp : g.pend j = some gid
    · exact hP gid hp
    · rw [hG gid hp]
      refine hinv.groups gid fun i hi => ?_
      by_cases hij : i = j
      · subst hij; exact hp hi
      · exact h i ((hpn i hij).trans hi)
  · have h' : v.users y = some z := h
    rw [hv y] at h'
    by_cases hy : y = uid
    · subst hy
      rw [if_pos rfl] at h'
      exact hused z h'
    · rw [if_neg hy] at h'
      obtain ⟨k1, k2⟩ := hinv.named y z h'
      exact ⟨.inl k1, fun q hq => .inl (k2 q hq)⟩
  · by_cases hp : g.pend j = some gid
    · exact .inr hp
    · refine .inl (hinv.existing gid ?_)
      rw [← hG gid hp]
      exact h
  · by_cases hij : i = j
    · subst hij; rw [hpj] at h; cases h
    · rw [hpn i hij] at h
      obtain ⟨h1, h2, h3⟩ := hinv.pend i id h
      refine ⟨?_, h2.imp (fun h => (hg id).trans h) fun h => h, fun i' h' => ?_⟩
      · rintro (h | h)
        · exact h1 h
        · exact hij (h3 j h).symm
      · by_cases hij' : i' = j
        · subst hij'; rw [hpj] at h'; cases h'
        · exact h3 i' ((hpn i' hij').symm.trans h')
  · simp only [DirGhost.commit] at h
    split at h
    · cases h
    · exact (hinv.rd i y h).imp .inl id
  · have h1' : w.t + 1 ≤ t := h1
    obtain ⟨⟨k1, k2⟩, k3⟩ := hinv.fresh t b (by omega) h2 h3
    refine ⟨⟨?_, fun i hi => ?_⟩, k3⟩
    · rintro (h | h)
      · exact k1 h
      · exact k2 j h
    · by_cases hij : i = j
      · subst hij; rw [hpj] at hi; cases hi
      · exact k2 i ((hpn i hij).symm.trans hi)
  · show v.users y = _
    rw [hv y, if_neg]
    rintro rfl
    exact hlock i hi hy
  · refine hG id fun hp => ?_
    exact (hinv.pend j id hp).1 h

theorem dir_step {e : Eff} {k : e.Resp → Prog DirRes} {dn : Option (Outcome DirRes → Prop)} {g : DirGhost} {w : World}
    (h : ∀ g' w', DirRely j g w.store g' w'.store → INV g' w' → (DR).calm j g' → w'.t < hi →
      ∃ r w'', w'.exec env e = (r, w'') ∧ ∃ g'' d', (DR).moveS j dn g' d' g'' ∧ INV g'' w'' ∧
        (∀ i, i ≠ j → DirRely i g' w'.store g'' w''.store) ∧ LinS DR j (k r) d' g'' w'') : LinS DR j (.op e k) dn g w := by
  intro g' w' h1 h2 h3 h4
  obtain ⟨r, w'', h5, h6⟩ := h g' w' h1 h2 h3 h4
  show ∃ g'' d', (DR).moveS j dn g' d' g'' ∧ INV g'' (w'.exec env e).2 ∧
    (∀ i, i ≠ j → DirRely i g' w'.store g'' (w'.exec env e).2.store) ∧ LinS DR j (k (w'.exec env e).1) d' g'' (w'.exec env e).2
  rw [h5]
  exact h6

theorem dir_rand (hr : RandOk env) {n : Nat} {K : BytesN n → Prog DirRes} {dn : Option (Outcome DirRes → Prop)} {g : DirGhost} {w : World}
    (hK : ∀ g' (w' : World), DirRely j g w.store g' w'.store → lo ≤ w'.t → w'.t < hi → LinS DR j (K (drawn env w'.t n)) dn g' ⟨w'.store, w'.t + 1⟩) :
    LinS DR j ((randBytes n).bind K) dn g w := by
  rw [randBytes, op_bind]
  refine dir_step fun g' w' hrel hinv _ ht => ⟨_, _, exec_rand _ _, g', dn, .inl ⟨rfl, rfl⟩, ?_⟩
  obtain ⟨h1, h2⟩ := dir_still (w' := ⟨w'.store, w'.t + 1⟩) hinv rfl fun _ => ⟨rfl, rfl⟩
  refine ⟨h1, fun i _ => h2 i, ?_⟩
  have := hK g' w' hrel hinv.late ht
  have hsome := hr w'.t n
  rw [drawn] at this
  cases hb : env.rand w'.t n with
  | none => rw [hb] at hsome; cases hsome
  | some b => rw [hb] at this; exact this

include L in
theorem dir_seal (hr : RandOk env) {cr : Cryptor} {p a : J} {K : Bytes × Bytes → Prog DirRes} {dn : Option (Outcome DirRes → Prop)} {g : DirGhost}
    {w : World} (hK : ∀ (k : BytesN 32) (n : BytesN 12) g' w', DirRely j g w.store g' w'.store →
      LinS DR j (K (kwpBox P cr.kwp k.1, gcmBox P k.1 n.1 a.render p.render)) dn g' w') : LinS DR j ((cr.encrypt P p a).bind K) dn g w := by
  rw [Cryptor.encrypt_eq L, Prog.bind_assoc]
  refine dir_rand hr fun g1 w1 h1 _ _ => ?_
  rw [Prog.bind_assoc]
  refine dir_rand hr fun g2 w2 h2 _ _ => ?_
  exact hK _ _ g2 _ (h1.trans h2)

/-! ## Reading -/

def readUser (P : Prims) (s : Standalone) (uid : GoString) (r : (Eff.get uid dtUser).Resp) : Prog User := match (r : Except IoErr Bytes) with
  | .ok b => match (P.unmarshal b).bind SealedUser.ofJ with
    | none => .err .json
    | some user => Prog.ofExcept (user.unseal P s.userCryptor)
  | .error e => .err (onNotFound .userNotFound e)

theorem getUser_op (uid : GoString) : s.getUser P uid = .op (.get uid dtUser) (readUser P s uid) := by
  rw [Standalone.getUser, Prog.bind_eq, ioGet, op_bind]
  congr 1
  funext r
  cases r <;> rfl

/-- The stored form of a user. -/
def Stored (P : Prims) (u : DirUser) (x : User) : Prop :=
  ∃ hash, x = ⟨some hash, u.scopes, some u.groups⟩ ∧ ∀ p, comparePassword P p hash = some (u.accepts p)

theorem exec_getUser_none (hf : NoFault env) {w : World} {uid : GoString} (h : w.store uid dtUser = none) :
    ∃ r, w.exec env (.get uid dtUser) = (r, ⟨w.store, w.t + 1⟩) ∧ readUser P s uid r = .err .userNotFound := by
  rw [exec_none hf]
  simp only [Store.exec, h]
  exact ⟨_, rfl, rfl⟩

include L in
theorem exec_getUser_some (hf : NoFault env) {w : World} {uid : GoString} {u : DirUser} (h : UserAt P s w.store uid u) :
    ∃ r x, w.exec env (.get uid dtUser) = (r, ⟨w.store, w.t + 1⟩) ∧ readUser P s uid r = .ret x ∧ Stored P u x := by
  obtain ⟨hash, hr, hc⟩ := run_getUser L hf h
  rw [getUser_op] at hr
  rw [run_op] at hr
  obtain ⟨b, hb⟩ := h.some
  have he : w.exec env (.get uid dtUser) = (.ok b, ⟨w.store, w.t + 1⟩) := by
    rw [exec_none hf]
    simp only [Store.exec, hb]
  rw [he] at hr
  refine ⟨_, ⟨some hash, u.scopes, some u.groups⟩, he, ?_, hash, rfl, hc⟩
  revert hr
  simp only [readUser]
  cases (P.unmarshal b).bind SealedUser.ofJ with
  | none => simp
  | some su =>
    simp only
    cases su.unseal P s.userCryptor with
    | error e => simp
    | ok x => simp

def readGroup (P : Prims) (s : Standalone) (gid : GoString) (r : (Eff.get gid dtGroup).Resp) : Prog Group := match (r : Except IoErr Bytes) with
  | .ok b => match (P.unmarshal b).bind SealedGroup.ofJ with
    | none => .err .json
    | some group => Prog.ofExcept (group.unseal P s.groupCryptor)
  | .error e => .err (onNotFound .groupNotFound e)

theorem getGroup_op (gid : GoString) : s.getGroup P gid = .op (.get gid dtGroup) (readGroup P s gid) := by
  rw [Standalone.getGroup, Prog.bind_eq, ioGet, op_bind]
  congr 1
  funext r
  cases r <;> rfl

theorem exec_getGroup_none (hf : NoFault env) {w : World} {gid : GoString} (h : w.store gid dtGroup = none) :
    ∃ r, w.exec env (.get gid dtGroup) = (r, ⟨w.store, w.t + 1⟩) ∧ readGroup P s gid r = .err .groupNotFound := by
  rw [exec_none hf]
  simp only [Store.exec, h]
  exact ⟨_, rfl, rfl⟩

include L in
theorem exec_getGroup_some (hf : NoFault env) {w : World} {gid : GoString} {sc : Scope} (h : GroupAt P s w.store gid sc) :
    ∃ r, w.exec env (.get gid dtGroup) = (r, ⟨w.store, w.t + 1⟩) ∧ readGroup P s gid r = .ret ⟨sc⟩ := by
  have hr := run_getGroup L hf (env := env) h
  rw [getGroup_op, run_op] at hr
  obtain ⟨b, hb⟩ : ∃ b, w.store gid dtGroup = some b := by obtain ⟨_, _, hb, -⟩ := h; exact ⟨_, hb⟩
  have he : w.exec env (.get gid dtGroup) = (.ok b, ⟨w.store, w.t + 1⟩) := by
    rw [exec_none hf]
    simp only [Store.exec, hb]
  rw [he] at hr
  refine ⟨_, he, ?_⟩
  revert hr
  simp only [readGroup]
  cases (P.unmarshal b).bind SealedGroup.ofJ with
  | none => simp
  | some su =>
    simp only
    cases su.unseal P s.groupCryptor with
    | error e => simp
    | ok x => simp

/-! ## Who is calling -/

theorem timeNow_attempt {α β γ : Type} (k : GoTime → Prog α) (h : Except Err α → Prog β) (K : β → Prog γ) :
    ((timeNow.bind k).attempt h).bind K = .op .now fun r => ((k r).attempt h).bind K := rfl

/-- Inputs of a call for which only the token matters. -/
def inAt (P : Prims) (s : Standalone) (env : Env) (c : DirCall) (t : Nat) (name : GoString) : DirIn where
  who := tokenUser P s.tokenCryptor c.token (env.now t).ns
  now := (env.now t).ns
  newId := name
  password := b64Enc true (drawn env t passwordLength).1
  accepts := acceptsWith P (drawn env t saltLength).1 (b64Enc true (drawn env t passwordLength).1)

theorem inAt_step {t : Nat} (h1 : lo ≤ t) (h2 : t < hi) {v v' : Dir} {r : Except Err DirRes} (name : GoString)
    (hs : dirStep v (inAt P s env c t name) c = (r, v')) (he : r ≠ .error .userAlreadyExists) (he' : r ≠ .error .groupAlreadyExists) :
    DirStep P s env lo hi c v (toOutcome r) v' := by
  refine ⟨inAt P s env c t name, ⟨t, h1, h2, rfl⟩, ⟨t, h1, h2, rfl⟩, ⟨t, t, h1, h2, h1, h2, rfl, rfl⟩, ?_, ?_, by rw [hs], by rw [hs]⟩
  · cases r with
    | ok _ => simp [toOutcome]
    | error e => simp only [toOutcome, ne_eq, Outcome.err.injEq]; exact fun h => he (by rw [h])
  · cases r with
    | ok _ => simp [toOutcome]
    | error e => simp only [toOutcome, ne_eq, Outcome.err.injEq]; exact fun h => he' (by rw [h])

theorem DirInv.group {g : DirGhost} {w : World} (hinv : INV g w) {x : GoString} (hu : g.used x) : GroupRel P s w.store x (g.v.groups x) :=
  hinv.groups x fun i hp => (hinv.pend i x hp).1 hu

include L in
/-- The groups of a user are read.  Groups do not change, so it does not matter when. -/
theorem dir_fetch (hf : NoFault env) (v0 : Dir) {dn : Option (Outcome DirRes → Prop)} (l : List GoString)
    {K : List (GoString × AccessGroup) → Prog DirRes} {g : DirGhost} {w : World}
    (hu : ∀ x ∈ l, g.used x ∧ g.v.groups x = v0.groups x)
    (hK : (∀ x ∈ l, (v0.groups x).isSome = true) → ∀ g' w', DirRely j g w.store g' w'.store →
      LinS DR j (K (l.map fun x => (x, ⟨x, (v0.groups x).getD 0⟩))) dn g' w')
    (hE : ¬ (∀ x ∈ l, (v0.groups x).isSome = true) → (∃ D, dn = some D ∧ D (.err .groupNotFound)) ∧ ¬ g.holds j) :
    LinS DR j ((s.fetchGroups P l).bind K) dn g w := by
  induction l generalizing K g w with
  | nil => exact hK (by simp) g w (DirRely.refl _ _ _)
  | cons x l ih =>
    rw [Standalone.fetchGroups, getGroup_op, Prog.bind_eq, op_bind, op_bind]
    refine dir_step fun g' w' hrel hinv _ ht => ?_
    obtain ⟨hx1, hx2⟩ := hrel.used x (hu x (by simp)).1
    have hx3 : g'.v.groups x = v0.groups x := hx2.trans (hu x (by simp)).2
    have hg := hinv.group hx1
    rw [hx3] at hg
    obtain ⟨k1, k2⟩ := dir_still (w' := ⟨w'.store, w'.t + 1⟩) hinv rfl fun _ => ⟨rfl, rfl⟩
    cases hv : v0.groups x with
    | none =>
      rw [hv] at hg
      obtain ⟨r, hr1, hr2⟩ := exec_getGroup_none (P := P) (s := s) hf hg
      refine ⟨r, _, hr1, g', dn, .inl ⟨rfl, rfl⟩, k1, fun i _ => k2 i, ?_⟩
      rw [hr2]
      obtain ⟨⟨D, h1, h2⟩, h3⟩ := hE fun h => by have := h x (by simp); rw [hv] at this; cases this
      rw [h1]
      exact linS_end (R := DR) (p := .err .groupNotFound) rfl h2 (fun h => h3 (((DR).holds_iff hrel).mp h)) _
    | some sc =>
      rw [hv] at hg
      obtain ⟨r, hr1, hr2⟩ := exec_getGroup_some L hf hg
      refine ⟨r, _, hr1, g', dn, .inl ⟨rfl, rfl⟩, k1, fun i _ => k2 i, ?_⟩
      rw [hr2, ret_bind, Prog.bind_eq, Prog.bind_assoc]
      refine ih (fun y hy => ?_) (fun hall g2 w2 h2 => ?_) fun hn => ?_
      · obtain ⟨a1, a2⟩ := hrel.used y (hu y (by simp [hy])).1
        exact ⟨a1, a2.trans (hu y (by simp [hy])).2⟩
      · have := hK (by
          intro y hy
          rcases List.mem_cons.mp hy with rfl | hy
          · rw [hv]; rfl
          · exact hall y hy) g2 w2 (hrel.trans h2)
        rw [List.map_cons, hv] at this
        exact this
      · obtain ⟨h1, h3⟩ := hE fun h => hn fun y hy => h y (by simp [hy])
        exact ⟨h1, fun h => h3 (((DR).holds_iff hrel).mp h)⟩

/-- Call `j` counts on nothing. -/
def Idle (g : DirGhost) (j : Nat) : Prop := g.pend j = none ∧ g.rd j = []

theorem Idle.stable {g g' : DirGhost} {st st' : Store} (h : Idle g j) (hr : DirRely j g st g' st') : Idle g' j :=
  ⟨hr.pend.trans h.1, hr.rd.trans h.2⟩

theorem Idle.not_holds {g : DirGhost} (h : Idle g j) : ¬ g.holds j := by
  rintro (h' | h')
  · exact h' h.1
  · exact h' h.2

theorem idle_hold (g : DirGhost) (j : Nat) : Idle (g.hold j none []) j := by simp [Idle, DirGhost.hold]

theorem idle_commit (g : DirGhost) (j : Nat) (v : Dir) : Idle (g.commit j v) j := by simp [Idle, DirGhost.commit]

/-- The call takes effect, changing nothing. -/
theorem moveS_same {g g' : DirGhost} (hg : g'.v = g.v) (hc : calls[j]? = some c) {o : Outcome DirRes} (h : DirStep P s env lo hi c g.v o g.v) :
    (DR).moveS j none g (some (· = o)) g' := by
  refine .inr ⟨rfl, _, rfl, ⟨o, rfl⟩, ?_⟩
  rintro _ rfl
  refine ⟨c, hc, ?_⟩
  show DirStep P s env lo hi c g.v _ g'.v
  rw [hg]
  exact h

theorem dir_fail {e : Err} {p : Prog DirRes} {g : DirGhost} {w : World} (hp : p = .err e) (h : Idle g j) :
    LinS DR j p (some (· = .err e)) g w := by
  subst hp
  exact linS_end (R := DR) (p := .err e) (D := (· = .err e)) rfl rfl h.not_holds _

theorem moveS_stay {g g' : DirGhost} (hg : g'.v = g.v) {d : Option (Outcome DirRes → Prop)} : (DR).moveS j d g d g' := .inl ⟨rfl, hg⟩

include L in
theorem dir_identity (hf : NoFault env) (hc : calls[j]? = some c) {token : GoString} (htok : c.token = token)
    {f : Dir → DirIn → GoString → DirUser → Except Err DirRes × Dir} (hstep : ∀ v inp, dirStep v inp c = v.asCaller inp.who (f v inp))
    {K : Identity → Prog DirRes} {g : DirGhost} {w : World} (hidle : Idle g j) (hne : ((s.getIdentity P token).bind K).outcome = none)
    (hK : ∀ g' w' me u t, INV g' w' → lo ≤ t → t < hi → tokenUser P s.tokenCryptor token (env.now t).ns = some me →
      g'.v.users me = some u → (∀ x ∈ u.groups, (g'.v.groups x).isSome = true) →
      ∃ d' r', (∀ uid ∈ r', g'.used uid ∧ DirUses P s c uid) ∧ (DR).moveS j none g' d' (g'.hold j none r') ∧
        ∀ g'' w'', DirRely j (g'.hold j none r') w'.store g'' w''.store → LinS DR j (K (dirIdentity g'.v (me, u))) d' g'' w'') :
    LinS DR j ((s.getIdentity P token).bind K) none g w := by
  subst htok
  rw [Standalone.getIdentity] at hne ⊢
  cases ht : tokenFromString P c.token with
  | error e => rw [ht] at hne; cases hne
  | ok t =>
    simp only
    rw [SealedToken.unseal, Prog.bind_eq, timeNow_attempt]
    refine dir_step fun g1 w1 hrel1 hinv1 _ ht1 => ⟨_, _, exec_now _, ?_⟩
    obtain ⟨k1, k2⟩ := dir_still (w' := ⟨w1.store, w1.t + 1⟩) hinv1 rfl fun _ => ⟨rfl, rfl⟩
    have hid1 := hidle.stable hrel1
    have htu : tokenUser P s.tokenCryptor c.token (env.now w1.t).ns = (if t.expiryTime.ns < (env.now w1.t).ns then none else
        match s.tokenCryptor.decrypt P J.toBytes (.ofTime P t.expiryTime) t.wrappedKey.bytes t.ciphertext.bytes with
        | .error _ => none
        | .ok p => some p.bytes) := by rw [tokenUser, ht]; rfl
    have hfail : tokenUser P s.tokenCryptor c.token (env.now w1.t).ns = none →
        DirStep P s env lo hi c g1.v (.err .idNotAuthenticated) g1.v := by
      intro h
      refine inAt_step (r := .error .idNotAuthenticated) hinv1.late ht1 [] ?_ (by simp) (by simp)
      rw [hstep, Dir.asCaller]
      simp [inAt, h, Dir.identify]
    have hb : t.expiryTime.before (env.now w1.t) = decide (t.expiryTime.ns < (env.now w1.t).ns) := rfl
    by_cases hexp : t.expiryTime.ns < (env.now w1.t).ns
    · rw [if_pos hexp] at htu
      rw [if_pos (by rw [hb]; simpa using hexp)]
      exact ⟨g1, some (· = .err .idNotAuthenticated), moveS_same rfl hc (hfail htu), k1, fun i _ => k2 i,
        dir_fail rfl hid1⟩
    rw [if_neg hexp] at htu
    rw [if_neg (by rw [hb]; simpa using hexp)]
    cases hd : s.tokenCryptor.decrypt P J.toBytes (.ofTime P t.expiryTime) t.wrappedKey.bytes t.ciphertext.bytes with
    | error e =>
      rw [hd] at htu
      exact ⟨g1, some (· = .err .idNotAuthenticated), moveS_same rfl hc (hfail htu), k1, fun i _ => k2 i,
        dir_fail rfl hid1⟩
    | ok p =>
      rw [hd] at htu
      simp only at htu
      refine ⟨g1, none, moveS_stay rfl, k1, fun i _ => k2 i, ?_⟩
      show LinS DR j (((s.getUser P p.bytes).bind fun user => (s.fetchGroups P (user.groups.getD [])).bind fun groups =>
        .ret ⟨p.bytes, user.scopes, groups⟩).bind K) none g1 _
      rw [getUser_op, op_bind, op_bind]
      refine dir_step fun g2 w2 hrel2 hinv2 _ ht2 => ?_
      have hid2 := hid1.stable hrel2
      have hus := hinv2.users p.bytes
      have hlin : ∀ e, g2.v.identify (some p.bytes) = .error e → DirStep P s env lo hi c g2.v (.err e) g2.v := by
        intro e h
        refine inAt_step (r := .error e) hinv1.late ht1 [] ?_ ?_ ?_
        · rw [hstep, Dir.asCaller]
          simp only [inAt, htu, h]
        · rintro ⟨⟩
          revert h
          simp only [Dir.identify]
          split
          · simp
          · split <;> simp
        · rintro ⟨⟩
          revert h
          simp only [Dir.identify]
          split
          · simp
          · split <;> simp
      cases hv : g2.v.users p.bytes with
      | none =>
        rw [hv] at hus
        obtain ⟨r, hr1, hr2⟩ := exec_getUser_none (P := P) (s := s) hf hus
        obtain ⟨m1, m2⟩ := dir_still (w' := ⟨w2.store, w2.t + 1⟩) hinv2 rfl fun _ => ⟨rfl, rfl⟩
        refine ⟨r, _, hr1, g2, some (· = .err .userNotFound), moveS_same rfl hc (hlin _ ?_), m1, fun i _ => m2 i, ?_⟩
        · simp [Dir.identify, hv]
        · rw [hr2]
          exact dir_fail rfl hid2
      | some u =>
        rw [hv] at hus
        obtain ⟨r, x, hr1, hr2, hash, rfl, hcmp⟩ := exec_getUser_some L hf hus
        refine ⟨r, _, hr1, ?_⟩
        rw [hr2, ret_bind]
        have hnamed := (hinv2.named _ _ hv).2
        by_cases hall : ∀ x ∈ u.groups, (g2.v.groups x).isSome = true
        · obtain ⟨d', r', h1, h2, h3⟩ := hK g2 w2 p.bytes u w1.t hinv2 hinv1.late ht1 htu hv hall
          obtain ⟨m1, m2⟩ := dir_quiet (w' := ⟨w2.store, w2.t + 1⟩) hinv2 rfl (fun _ => ⟨rfl, rfl⟩) hc h1 hid2.1.symm
          refine ⟨_, d', h2, m1, m2, ?_⟩
          rw [Prog.bind_assoc]
          refine dir_fetch L hf g2.v _ (fun x hx => ⟨hnamed x hx, rfl⟩) (fun _ g3 w3 h4 => ?_) fun hn => absurd hall hn
          rw [ret_bind]
          exact h3 g3 w3 h4
        · obtain ⟨m1, m2⟩ := dir_still (w' := ⟨w2.store, w2.t + 1⟩) hinv2 rfl fun _ => ⟨rfl, rfl⟩
          refine ⟨g2, some (· = .err .groupNotFound), moveS_same rfl hc (hlin _ ?_), m1, fun i _ => m2 i, ?_⟩
          · simp only [Dir.identify, hv]
            rw [if_neg]
            rw [List.all_eq_true]
            exact hall
          · rw [Prog.bind_assoc]
            exact dir_fetch L hf g2.v _ (fun x hx => ⟨hnamed x hx, rfl⟩) (fun h => absurd h hall) fun _ => ⟨⟨_, rfl, rfl⟩, hid2.not_holds⟩

/-! ## Writing -/

theorem dir_locked {g : DirGhost} {w : World} (hinv : INV g w) (hcalm : (DR).calm j g) (hc : calls[j]? = some c) {uid : GoString}
    (hw : DirWrites P s c uid) : ∀ i, i ≠ j → uid ∉ g.rd i := by
  intro i hi h
  obtain ⟨-, a, ha, hu⟩ := hinv.rd i uid h
  exact hcalm i hi ⟨a, c, ha, hc, uid, .inr ⟨hu, hw⟩⟩ (.inr (List.ne_nil_of_mem h))

include L in
/-- The last step of a call that writes the record of a user. -/
theorem dir_putUser (hf : NoFault env) (hr : RandOk env) (hc : calls[j]? = some c) {uid : GoString} {u : DirUser} {x : User} {update : Bool}
    {K : Unit → Prog DirRes} {o : Outcome DirRes} {g : DirGhost} {w : World}
    (hup : (update = true ∧ uid ∈ g.rd j ∧ g.v.users uid ≠ none ∧ DirWrites P s c uid) ∨ (update = false ∧ g.pend j = some uid))
    (hx : Stored P u x) (hsan : sanitize uid = uid) (hnd : u.groups.Nodup) (hgs : ∀ z ∈ u.groups, sanitize z = z)
    (hused : ∀ z ∈ u.groups, g.used z ∨ g.pend j = some z)
    (hcom : ∀ g' w', DirRely j g w.store g' w'.store → INV g' w' → ∃ v, (∀ y, v.users y = if y = uid then some u else g'.v.users y) ∧
      (∀ id, g'.pend j ≠ some id → v.groups id = g'.v.groups id) ∧ (∀ id, g'.pend j = some id → GroupRel P s w'.store id (v.groups id)) ∧
      DirStep P s env lo hi c g'.v o v)
    (hK : (K ()).outcome = some o) : LinS DR j ((s.putUser P uid x update).bind K) none g w := by
  rw [Standalone.putUser, User.seal, Prog.bind_eq, Prog.bind_eq, Prog.bind_assoc, Prog.bind_assoc]
  refine dir_seal L hr fun k n g1 w1 hrel1 => ?_
  have hrest : ∀ g2 w2, DirRely j g1 w1.store g2 w2.store → INV g2 w2 → (DR).calm j g2 →
      ∃ g3, (DR).moveS j none g2 (some (· = o)) g3 ∧
        INV g3 ⟨w2.store.set uid dtUser (some (sealedUser P s uid x k n).toJ.render), w2.t + 1⟩ ∧
        (∀ i, i ≠ j → DirRely i g2 w2.store g3 (w2.store.set uid dtUser (some (sealedUser P s uid x k n).toJ.render))) ∧
        ∀ w3, LinS DR j (K ()) (some (· = o)) g3 w3 := by
    intro g2 w2 hrel2 hinv hcalm
    have hrel := hrel1.trans hrel2
    obtain ⟨v, h1, h2, h3, h4⟩ := hcom g2 w2 hrel hinv
    obtain ⟨hash, rfl, hcmp⟩ := hx
    have hpd := hrel.pend
    obtain ⟨m1, m2⟩ := dir_commit (j := j) hinv (x := some (sealedUser P s uid ⟨some hash, u.scopes, some u.groups⟩ k n).toJ.render) h1
      ⟨hash, k, n, Store.set_same _ _ _ _, hcmp, hsan, hnd, hgs⟩ h2 h3
      (by
        rintro _ ⟨⟩
        refine ⟨?_, fun z hz => ?_⟩
        · rcases hup with ⟨-, h, -⟩ | ⟨-, h⟩
          · rw [← hrel.rd] at h
            exact .inl (hinv.rd j uid h).1
          · exact .inr (hpd.trans h)
        · rcases hused z hz with h | h
          · exact .inl (hrel.used z h).1
          · exact .inr (hpd.trans h))
      (by
        rcases hup with ⟨-, -, -, h⟩ | ⟨-, h⟩
        · exact dir_locked hinv hcalm hc h
        · intro i _ hi
          exact (hinv.pend j uid (hpd.trans h)).1 (hinv.rd i uid hi).1)
    refine ⟨_, .inr ⟨rfl, _, rfl, ⟨o, rfl⟩, ?_⟩, m1, m2, fun w3 => linS_end (R := DR) (D := (· = o)) hK rfl (idle_commit _ _ _).not_holds w3⟩
    rintro _ rfl
    exact ⟨c, hc, h4⟩
  rcases hup with ⟨rfl, hrd, hex, -⟩ | ⟨rfl, hpend⟩
  · show LinS DR j ((ioUpdate (onNotFound .userNotFound) uid dtUser (sealedUser P s uid x k n).toJ.render).bind K) none g1 w1
    rw [ioUpdate, op_bind]
    refine dir_step fun g2 w2 hrel2 hinv hcalm _ => ?_
    have hrel := hrel1.trans hrel2
    have hus := hinv.users uid
    rw [hrel.user uid hrd] at hus
    obtain ⟨b, hb⟩ : ∃ b, w2.store uid dtUser = some b := by
      cases hv : g.v.users uid with
      | none => exact absurd hv hex
      | some u' => rw [hv] at hus; exact hus.some
    have he : w2.exec env (.update uid dtUser (sealedUser P s uid x k n).toJ.render) =
        (.ok (), ⟨w2.store.set uid dtUser (some (sealedUser P s uid x k n).toJ.render), w2.t + 1⟩) := by
      rw [exec_none hf]
      simp only [Store.exec, hb]
    obtain ⟨g3, h1, h2, h3, h4⟩ := hrest g2 w2 hrel2 hinv hcalm
    exact ⟨_, _, he, g3, _, h1, h2, h3, h4 _⟩
  · show LinS DR j ((ioPut (onAlreadyExists .userAlreadyExists) uid dtUser (sealedUser P s uid x k n).toJ.render).bind K) none g1 w1
    rw [ioPut, op_bind]
    refine dir_step fun g2 w2 hrel2 hinv hcalm _ => ?_
    have hrel := hrel1.trans hrel2
    have hus := hinv.users uid
    rw [(hinv.unused (hinv.pend j uid (hrel.pend.trans hpend)).1).1] at hus
    have hb : w2.store uid dtUser = none := hus
    have he : w2.exec env (.put uid dtUser (sealedUser P s uid x k n).toJ.render) =
        (.ok (), ⟨w2.store.set uid dtUser (some (sealedUser P s uid x k n).toJ.render), w2.t + 1⟩) := by
      rw [exec_none hf]
      simp only [Store.exec, hb]
    obtain ⟨g3, h1, h2, h3, h4⟩ := hrest g2 w2 hrel2 hinv hcalm
    exact ⟨_, _, he, g3, _, h1, h2, h3, h4 _⟩

/-! ## The calls -/

section
variable (hf : NoFault env) (hr : RandOk env)

theorem dir_password {K : GoString × Bytes → Prog DirRes} {dn : Option (Outcome DirRes → Prop)} {g : DirGhost} {w : World} (hr : RandOk env)
    (hK : ∀ t t' hash g' w', lo ≤ t → t < hi → lo ≤ t' → t' < hi → DirRely j g w.store g' w'.store →
      (∀ p, comparePassword P p hash = some (acceptsWith P (drawn env t' saltLength).1 (b64Enc true (drawn env t passwordLength).1) p)) →
      LinS DR j (K (b64Enc true (drawn env t passwordLength).1, hash)) dn g' w') :
    LinS DR j ((generatePassword P).bind K) dn g w := by
  rw [generatePassword, Prog.bind_eq, Prog.bind_assoc]
  refine dir_rand hr fun g1 w1 h1 a1 b1 => ?_
  rw [Prog.bind_eq, Prog.bind_assoc]
  refine dir_rand hr fun g2 w2 h2 a2 b2 => ?_
  refine hK w1.t w2.t _ g2 _ a1 b1 a2 b2 (h1.trans h2) fun p => ?_
  have hl : (drawn env w2.t saltLength).1.length = saltLength := (drawn env w2.t saltLength).2
  rw [comparePassword, if_neg (by rw [List.length_append]; omega)]
  simp only [List.take_left' hl, List.drop_left' hl, acceptsWith]

include L in
theorem lin_newUser (hf : NoFault env) (hr : RandOk env) {scopes : List Scope} (hc : calls[j]? = some (.newUser scopes)) {g : DirGhost} {w : World}
    (hidle : Idle g j) : LinS DR j (dirProg P s (.newUser scopes)) none g w := by
  simp only [dirProg, Standalone.newUser, D1.newUser, newV4, randBytes, Prog.bind_eq, Prog.bind_assoc, Prog.pure_eq, Prog.ret_bind, op_bind]
  refine dir_step fun g1 w1 hrel1 hinv1 _ ht1 => ⟨_, _, exec_rand _ _, ?_⟩
  obtain ⟨b, hb⟩ := Option.isSome_iff_exists.mp (hr w1.t 16)
  rw [hb]
  obtain ⟨m1, m2⟩ := dir_reserve hinv1 (hidle.stable hrel1).1 ht1 hb
  refine ⟨g1.hold j (some (newName b)) (g1.rd j), none, moveS_stay rfl, m1, m2, ?_⟩
  simp only [Prog.ret_bind]
  refine dir_password hr fun t t' hash g2 w2 h1 h2 h3 h4 hrel2 hcmp => ?_
  simp only
  have hp : g2.pend j = some (newName b) := by rw [hrel2.pend]; simp [DirGhost.hold]
  refine dir_putUser L hf hr hc (u := ⟨acceptsWith P (drawn env t' saltLength).1 (b64Enc true (drawn env t passwordLength).1), allScopes scopes, []⟩)
    (.inr ⟨rfl, hp⟩) ⟨hash, ?_, hcmp⟩ (sanitize_uuidText _) (by simp) (by simp) (by simp) (fun g3 w3 hrel3 hinv3 => ?_)
    (o := .ok (.user (newName b) (b64Enc true (drawn env t passwordLength).1))) rfl
  · rw [scopeUnion_eq]
  · have hp3 := hrel3.pend.trans hp
    obtain ⟨n1, n2⟩ := hinv3.unused (hinv3.pend j _ hp3).1
    refine ⟨g3.v.setUser (newName b) (some ⟨acceptsWith P (drawn env t' saltLength).1 (b64Enc true (drawn env t passwordLength).1),
      allScopes scopes, []⟩), fun y => rfl, fun id _ => rfl, fun id h => ?_, ?_⟩
    · rw [hp3] at h
      cases h
      show GroupRel P s w3.store (newName b) (g3.v.groups (newName b))
      rw [n2]
      rcases (hinv3.pend j _ hp3).2.1 with h | ⟨_, _, h⟩
      · exact h
      · rw [hc] at h; cases h
    · refine ⟨⟨tokenUser P s.tokenCryptor [] (env.now t).ns, (env.now t).ns, newName b, b64Enc true (drawn env t passwordLength).1,
        acceptsWith P (drawn env t' saltLength).1 (b64Enc true (drawn env t passwordLength).1)⟩, ⟨t, h1, h2, rfl⟩, ⟨t, h1, h2, rfl⟩,
        ⟨t, t', h1, h2, h3, h4, rfl, rfl⟩, by simp, by simp, ?_, ?_⟩
      · simp [dirStep, n1, toOutcome]
      · simp [dirStep, n1]

theorem getUser_mapErr {uid : GoString} {e : Err} (K : User → Prog DirRes) : ((s.getUser P uid).mapErr e).bind K =
    .op (.get uid dtUser) fun r => ((readUser P s uid r).mapErr e).bind K := by
  rw [getUser_op, Prog.mapErr, op_attempt, op_bind]
  rfl

theorem Stored.authenticate {u : DirUser} {x : User} (h : Stored P u x) (pwd : GoString) :
    x.authenticate P pwd = if u.accepts pwd = true then .ret () else .err .idNotAuthenticated := by
  obtain ⟨hash, rfl, hc⟩ := h
  simp only [User.authenticate, NBytes.bytes, Option.getD_some, hc, Prog.ofPanic_some, Prog.bind_eq, ret_bind]
  cases u.accepts pwd <;> rfl

theorem dir_rand_mapErr (hr : RandOk env) {β : Type} {n : Nat} {e : Err} {K : BytesN n → Prog β} {K' : β → Prog DirRes}
    {dn : Option (Outcome DirRes → Prop)} {g : DirGhost} {w : World}
    (hK : ∀ g' (w' : World), DirRely j g w.store g' w'.store → lo ≤ w'.t → w'.t < hi →
      LinS DR j (((K (drawn env w'.t n)).mapErr e).bind K') dn g' ⟨w'.store, w'.t + 1⟩) :
    LinS DR j ((((randBytes n).bind K).mapErr e).bind K') dn g w := by
  rw [randBytes, op_bind, Prog.mapErr, op_attempt, op_bind]
  refine dir_step fun g' w' hrel hinv _ ht => ⟨_, _, exec_rand _ _, g', dn, .inl ⟨rfl, rfl⟩, ?_⟩
  obtain ⟨h1, h2⟩ := dir_still (w' := ⟨w'.store, w'.t + 1⟩) hinv rfl fun _ => ⟨rfl, rfl⟩
  refine ⟨h1, fun i _ => h2 i, ?_⟩
  have := hK g' w' hrel hinv.late ht
  have hsome := hr w'.t n
  rw [drawn] at this
  cases hb : env.rand w'.t n with
  | none => rw [hb] at hsome; cases hsome
  | some b => rw [hb] at this; exact this

theorem timeNow_op {β : Type} (k : GoTime → Prog β) : timeNow.bind k = .op .now k := rfl

theorem dir_now {K : GoTime → Prog DirRes} {dn : Option (Outcome DirRes → Prop)} {g : DirGhost} {w : World}
    (hK : ∀ g' (w' : World), DirRely j g w.store g' w'.store → lo ≤ w'.t → w'.t < hi → LinS DR j (K (env.now w'.t)) dn g' ⟨w'.store, w'.t + 1⟩) :
    LinS DR j (timeNow.bind K) dn g w := by
  rw [timeNow_op]
  refine dir_step fun g' w' hrel hinv _ ht => ⟨_, _, exec_now _, g', dn, .inl ⟨rfl, rfl⟩, ?_⟩
  obtain ⟨h1, h2⟩ := dir_still (w' := ⟨w'.store, w'.t + 1⟩) hinv rfl fun _ => ⟨rfl, rfl⟩
  exact ⟨h1, fun i _ => h2 i, hK g' w' hrel hinv.late ht⟩

include L in
theorem lin_login (hf : NoFault env) (hr : RandOk env) {uid pwd : GoString} (hc : calls[j]? = some (.loginUser uid pwd)) {g : DirGhost} {w : World}
    (hidle : Idle g j) : LinS DR j (dirProg P s (.loginUser uid pwd)) none g w := by
  simp only [dirProg, loginUser_eq, Prog.bind_assoc]
  rw [getUser_mapErr]
  refine dir_step fun g1 w1 hrel1 hinv1 _ ht1 => ?_
  have hid1 := hidle.stable hrel1
  have hus := hinv1.users uid
  obtain ⟨m1, m2⟩ := dir_still (w' := ⟨w1.store, w1.t + 1⟩) hinv1 rfl fun _ => ⟨rfl, rfl⟩
  cases hv : g1.v.users uid with
  | none =>
    rw [hv] at hus
    obtain ⟨r, hr1, hr2⟩ := exec_getUser_none (P := P) (s := s) hf hus
    refine ⟨r, _, hr1, g1, some (· = .err .idNotAuthenticated), moveS_same rfl hc ?_, m1, fun i _ => m2 i, ?_⟩
    · exact inAt_step (r := .error .idNotAuthenticated) hinv1.late ht1 [] (by simp [dirStep, hv]) (by simp) (by simp)
    · rw [hr2]
      exact dir_fail rfl hid1
  | some u =>
    rw [hv] at hus
    obtain ⟨r, x, hr1, hr2, hx⟩ := exec_getUser_some L hf hus
    refine ⟨r, _, hr1, ?_⟩
    rw [hr2]
    show ∃ g'' d', (DR).moveS j none g1 d' g'' ∧ INV g'' _ ∧ (∀ i, i ≠ j → DirRely i g1 w1.store g'' _) ∧
      LinS DR j (((x.authenticate P pwd).mapErr .idNotAuthenticated).bind fun _ => _) d' g'' _
    rw [hx.authenticate]
    cases ha : u.accepts pwd with
    | false =>
      refine ⟨g1, some (· = .err .idNotAuthenticated), moveS_same rfl hc ?_, m1, fun i _ => m2 i, dir_fail rfl hid1⟩
      exact inAt_step (r := .error .idNotAuthenticated) hinv1.late ht1 [] (by simp [dirStep, hv, ha]) (by simp) (by simp)
    | true =>
      refine ⟨g1, some fun o => ∃ t, lo ≤ t ∧ t < hi ∧ o = .ok (.token (fun now => if now ≤ (env.now t).ns + hour then some uid else none)
        (((env.now t).ns + hour) / 1000000000)), .inr ⟨rfl, _, rfl, ⟨_, w1.t, hinv1.late, ht1, rfl⟩, ?_⟩, m1, fun i _ => m2 i, ?_⟩
      · rintro _ ⟨t, h1, h2, rfl⟩
        refine ⟨_, hc, ?_⟩
        show DirStep P s env lo hi _ g1.v _ g1.v
        exact inAt_step (r := .ok (.token (fun now => if now ≤ (env.now t).ns + hour then some uid else none)
          (((env.now t).ns + hour) / 1000000000))) h1 h2 [] (by simp only [dirStep, hv, ha, if_true]; rfl)
          (by simp) (by simp)
      · rw [if_pos rfl]
        show LinS DR j ((newToken (some uid) tokenValidity).bind fun t => ((t.seal P s.tokenCryptor).mapErr .idNotAuthenticated).bind fun st =>
          (Prog.ret (st.string P, st.expiryTime.unix)).bind fun r => .ret (.token (tokenUser P s.tokenCryptor r.1) r.2)) _ g1 _
        rw [newToken, Prog.bind_eq, Prog.bind_assoc]
        refine dir_now fun g2 w2 hrel2 h1 h2 => ?_
        simp only [Prog.pure_eq, ret_bind, Token.seal, Prog.bind_eq, Cryptor.encrypt_eq L, Prog.bind_assoc]
        refine dir_rand_mapErr hr fun g3 w3 hrel3 _ _ => ?_
        refine dir_rand_mapErr hr fun g4 w4 hrel4 _ _ => ?_
        have hts := funext (tokenUser_string L s.tokenCryptor (some uid) ((env.now w2.t).add tokenValidity)
          (drawn env w3.t 32) (drawn env w4.t 12))
        refine linS_end (R := DR) (o := .ok (.token (tokenUser P s.tokenCryptor ((sealedTok P s.tokenCryptor (some uid)
          ((env.now w2.t).add tokenValidity) (drawn env w3.t 32) (drawn env w4.t 12)).string P)) _)) rfl ?_
          ((hid1.stable hrel2).stable hrel3 |>.stable hrel4).not_holds _
        refine ⟨w2.t, h1, h2, ?_⟩
        rw [hts]
        rfl

include L in
theorem lin_changePassword (hf : NoFault env) (hr : RandOk env) {uid pwd : GoString} (hc : calls[j]? = some (.changePassword uid pwd))
    {g : DirGhost} {w : World} (hidle : Idle g j) : LinS DR j (dirProg P s (.changePassword uid pwd)) none g w := by
  simp only [dirProg, Standalone.changeUserPassword, Prog.bind_eq, Prog.bind_assoc, Prog.pure_eq, ret_bind]
  rw [getUser_mapErr]
  refine dir_step fun g1 w1 hrel1 hinv1 _ ht1 => ?_
  have hid1 := hidle.stable hrel1
  have hus := hinv1.users uid
  obtain ⟨m1, m2⟩ := dir_still (w' := ⟨w1.store, w1.t + 1⟩) hinv1 rfl fun _ => ⟨rfl, rfl⟩
  cases hv : g1.v.users uid with
  | none =>
    rw [hv] at hus
    obtain ⟨r, hr1, hr2⟩ := exec_getUser_none (P := P) (s := s) hf hus
    refine ⟨r, _, hr1, g1, some (· = .err .idNotAuthenticated), moveS_same rfl hc ?_, m1, fun i _ => m2 i, ?_⟩
    · exact inAt_step (r := .error .idNotAuthenticated) hinv1.late ht1 [] (by simp [dirStep, hv]) (by simp) (by simp)
    · rw [hr2]
      exact dir_fail rfl hid1
  | some u =>
    rw [hv] at hus
    obtain ⟨r, x, hr1, hr2, hx⟩ := exec_getUser_some L hf hus
    obtain ⟨_, _, _, _, _, hsan, hnd, hgs⟩ := hus
    refine ⟨r, _, hr1, ?_⟩
    rw [hr2]
    show ∃ g'' d', (DR).moveS j none g1 d' g'' ∧ INV g'' _ ∧ (∀ i, i ≠ j → DirRely i g1 w1.store g'' _) ∧
      LinS DR j (((x.changePassword P pwd).mapErr .idNotAuthenticated).bind fun _ => _) d' g'' _
    rw [User.changePassword, hx.authenticate]
    cases ha : u.accepts pwd with
    | false =>
      refine ⟨g1, some (· = .err .idNotAuthenticated), moveS_same rfl hc ?_, m1, fun i _ => m2 i, dir_fail rfl hid1⟩
      exact inAt_step (r := .error .idNotAuthenticated) hinv1.late ht1 [] (by simp [dirStep, hv, ha]) (by simp) (by simp)
    | true =>
      have hnamed := hinv1.named uid u hv
      obtain ⟨n1, n2⟩ := dir_quiet (w' := ⟨w1.store, w1.t + 1⟩) hinv1 rfl (fun _ => ⟨rfl, rfl⟩) hc (r := [uid])
        (by simp [DirUses, hnamed.1]) hid1.1.symm
      refine ⟨g1.hold j none [uid], none, moveS_stay rfl, n1, n2, ?_⟩
      simp only [if_true, Prog.bind_eq, ret_bind, generatePassword, Prog.bind_assoc]
      refine dir_rand_mapErr hr fun g2 w2 hrel2 a1 a2 => ?_
      refine dir_rand_mapErr hr fun g3 w3 hrel3 b1 b2 => ?_
      have hrel := hrel2.trans hrel3
      have hrd : g3.rd j = [uid] := by rw [hrel.rd]; simp [DirGhost.hold]
      have hu3 : g3.v.users uid = some u := (hrel.user uid (by simp [DirGhost.hold])).trans hv
      have hp3 : g3.pend j = none := by rw [hrel.pend]; simp [DirGhost.hold]
      obtain ⟨hash, rfl, -⟩ := hx
      show LinS DR j ((s.putUser P uid ⟨some ((drawn env w3.t saltLength).1 ++ P.pbkdf2 (b64Enc true (drawn env w2.t passwordLength).1)
        (drawn env w3.t saltLength).1), u.scopes, some u.groups⟩ true).bind fun _ =>
          .ret (.password (b64Enc true (drawn env w2.t passwordLength).1))) none g3 _
      refine dir_putUser L hf hr hc (u := { u with accepts := acceptsWith P (drawn env w3.t saltLength).1 (b64Enc true (drawn env w2.t passwordLength).1) })
        (.inl ⟨rfl, by rw [hrd]; simp, by rw [hu3]; simp, rfl⟩) ⟨_, rfl, fun p => ?_⟩ hsan hnd hgs
        (fun z hz => .inl (hrel.used z (hnamed.2 z hz)).1) (fun g4 w4 hrel4 hinv4 => ?_)
        (o := .ok (.password (b64Enc true (drawn env w2.t passwordLength).1))) rfl
      · have hl : (drawn env w3.t saltLength).1.length = saltLength := (drawn env w3.t saltLength).2
        rw [comparePassword, if_neg (by rw [List.length_append]; omega)]
        simp only [List.take_left' hl, List.drop_left' hl, acceptsWith]
      · have hu4 : g4.v.users uid = some u := (hrel4.user uid (by rw [hrd]; simp)).trans hu3
        have hp4 := hrel4.pend.trans hp3
        refine ⟨g4.v.setUser uid (some { u with accepts := acceptsWith P (drawn env w3.t saltLength).1 (b64Enc true (drawn env w2.t passwordLength).1) }),
          fun y => rfl, fun id _ => rfl, fun id h => by (rw [hp4] at h; cases h), ?_⟩
        refine ⟨⟨tokenUser P s.tokenCryptor [] (env.now w2.t).ns, (env.now w2.t).ns, [], b64Enc true (drawn env w2.t passwordLength).1,
          acceptsWith P (drawn env w3.t saltLength).1 (b64Enc true (drawn env w2.t passwordLength).1)⟩, ⟨w2.t, a1, a2, rfl⟩, ⟨w2.t, a1, a2, rfl⟩,
          ⟨w2.t, w3.t, a1, a2, b1, b2, rfl, rfl⟩, by simp, by simp, ?_, ?_⟩
        · simp [dirStep, hu4, ha, toOutcome]
        · simp [dirStep, hu4, ha]

/-- The caller and its groups exist. -/
structure Caller (g : DirGhost) (me : GoString) (u : DirUser) : Prop where
  user : g.v.users me = some u
  groups : ∀ x ∈ u.groups, g.used x ∧ (g.v.groups x).isSome = true

theorem Caller.stable {g g' : DirGhost} {st st' : Store} {me : GoString} {u : DirUser} (h : Caller g me u) (hr : DirRely j g st g' st')
    (hm : me ∈ g.rd j) : Caller g' me u :=
  ⟨(hr.user me hm).trans h.user, fun x hx => ⟨(hr.used x (h.groups x hx).1).1, by rw [(hr.used x (h.groups x hx).1).2]; exact (h.groups x hx).2⟩⟩

theorem Caller.step {g : DirGhost} {me : GoString} {u : DirUser} (h : Caller g me u) {t : Nat} (h1 : lo ≤ t) (h2 : t < hi)
    (htok : tokenUser P s.tokenCryptor c.token (env.now t).ns = some me)
    {f : Dir → DirIn → GoString → DirUser → Except Err DirRes × Dir} (hstep : ∀ v inp, dirStep v inp c = v.asCaller inp.who (f v inp))
    {r : Except Err DirRes} {v : Dir} (name : GoString) (hf : f g.v (inAt P s env c t name) me u = (r, v))
    (he : r ≠ .error .userAlreadyExists) (he' : r ≠ .error .groupAlreadyExists) : DirStep P s env lo hi c g.v (toOutcome r) v := by
  refine inAt_step h1 h2 name ?_ he he'
  have : (u.groups.all fun x => (g.v.groups x).isSome) = true := List.all_eq_true.mpr fun x hx => (h.groups x hx).2
  rw [hstep, Dir.asCaller]
  have hw : (inAt P s env c t name).who = some me := htok
  rw [hw]
  simp only [Dir.identify, h.user, this, if_true]
  exact hf

theorem DirInv.caller {g : DirGhost} {w : World} (hinv : INV g w) {me : GoString} {u : DirUser} (h : g.v.users me = some u)
    (hg : ∀ x ∈ u.groups, (g.v.groups x).isSome = true) : Caller g me u :=
  ⟨h, fun x hx => ⟨(hinv.named me u h).2 x hx, hg x hx⟩⟩

include L in
theorem lin_getIdentity (hf : NoFault env) {token : GoString} (hc : calls[j]? = some (.getIdentity token))
    {g : DirGhost} {w : World} (hidle : Idle g j) (hne : (dirProg P s (.getIdentity token)).outcome = none) :
    LinS DR j (dirProg P s (.getIdentity token)) none g w := by
  refine dir_identity L hf hc rfl (f := fun v _ me u => (.ok (.identity me u.scopes (v.memberships u)), v)) (fun _ _ => rfl) hidle hne
    fun g1 w1 me u t hinv h1 h2 htok hu hall => ?_
  refine ⟨some (· = .ok (.identity me u.scopes (g1.v.memberships u))), [], by simp, moveS_same rfl hc ?_, fun g2 w2 hrel => ?_⟩
  · exact (hinv.caller hu hall).step h1 h2 htok (f := fun v _ me u => (.ok (.identity me u.scopes (v.memberships u)), v)) (fun _ _ => rfl)
      (r := .ok (.identity me u.scopes (g1.v.memberships u))) [] rfl (by simp) (by simp)
  · refine linS_end (R := DR) (D := (· = _)) rfl ?_ ((idle_hold _ _).stable hrel).not_holds _
    have : (fun x => (lookupGroup (dirIdentity g1.v (me, u)).groups x).map (·.scopes)) = g1.v.memberships u := by
      funext x
      exact lookup_memberships g1.v x _ hall
    rw [this]
    rfl

include L in
theorem lin_deleteUser (hf : NoFault env) {token uid : GoString} (hc : calls[j]? = some (.deleteUser token uid))
    {g : DirGhost} {w : World} (hidle : Idle g j) (hne : (dirProg P s (.deleteUser token uid)).outcome = none) :
    LinS DR j (dirProg P s (.deleteUser token uid)) none g w := by
  simp only [dirProg, Standalone.deleteUser, Prog.bind_eq, Prog.bind_assoc] at hne ⊢
  refine dir_identity L hf hc rfl (f := fun v _ _ _ => (.ok .unit, v.setUser uid none)) (fun _ _ => rfl) hidle hne
    fun g1 w1 me u t hinv h1 h2 htok hu hall => ?_
  refine ⟨none, [me], ?_, moveS_stay rfl, fun g2 w2 hrel => ?_⟩
  · simp only [List.mem_singleton, forall_eq]
    exact ⟨(hinv.named me u hu).1, .inr ⟨_, htok⟩⟩
  · have hcal : Caller (g1.hold j none [me]) me u := ⟨hu, (hinv.caller hu hall).groups⟩
    have hcal2 := hcal.stable hrel (by simp [DirGhost.hold])
    have hrd2 : g2.rd j = [me] := by rw [hrel.rd]; simp [DirGhost.hold]
    have hp2 : g2.pend j = none := by rw [hrel.pend]; simp [DirGhost.hold]
    rw [ioDelete, op_bind]
    refine dir_step fun g3 w3 hrel3 hinv3 hcalm _ => ?_
    have hcal3 := hcal2.stable hrel3 (by simp [hrd2])
    have hp3 := hrel3.pend.trans hp2
    have he : w3.exec env (.delete uid dtUser) = (.ok (), ⟨w3.store.set uid dtUser none, w3.t + 1⟩) := by
      rw [exec_none hf]
      simp only [Store.exec]
    obtain ⟨m1, m2⟩ := dir_commit (j := j) hinv3 (x := none) (u := none) (v := g3.v.setUser uid none) (fun _ => rfl) (Store.set_same _ _ _ _)
      (fun _ _ => rfl) (fun id h => by (rw [hp3] at h; cases h)) (fun _ h => by cases h) (dir_locked hinv3 hcalm hc rfl)
    refine ⟨_, _, he, _, some (· = .ok .unit), .inr ⟨rfl, _, rfl, ⟨_, rfl⟩, ?_⟩, m1, m2,
      linS_end (R := DR) (D := (· = .ok .unit)) rfl rfl (idle_commit _ _ _).not_holds _⟩
    rintro _ rfl
    exact ⟨_, hc, hcal3.step h1 h2 htok (f := fun v _ _ _ => (.ok .unit, v.setUser uid none)) (fun _ _ => rfl) (r := .ok .unit) [] rfl
      (by simp) (by simp)⟩

include L in
/-- `AddUserToGroups` and `RemoveUserFromGroups`. -/
theorem lin_change (hf : NoFault env) (hr : RandOk env) {token uid : GoString} {gids : List GoString} (hc : calls[j]? = some c)
    (htok' : c.token = token) (hwr : DirWrites P s c uid) (hus : ∀ x, x = uid ∨ Names P s token x → DirUses P s c x)
    {upd : List GoString → List GoString} (hn : ∀ l, l.Nodup → (upd l).Nodup) (hm : ∀ l, ∀ x ∈ upd l, x ∈ l ∨ x ∈ gids)
    (hstep : ∀ v inp, dirStep v inp c = v.asCaller inp.who fun me u =>
      if gids.all (fun g => decide (g = me ∨ g ∈ u.groups)) then match v.users uid with
        | none => (.error .userNotFound, v)
        | some y => (.ok .unit, v.setUser uid (some { y with groups := upd y.groups }))
      else (.error .idNotAuthorized, v))
    {K : User → Prog DirRes} (hK : ∀ hash sc l, K ⟨hash, sc, some l⟩ = (s.putUser P uid ⟨hash, sc, some (upd l)⟩ true).bind fun _ => .ret .unit)
    {g : DirGhost} {w : World} (hidle : Idle g j)
    (hne : ((s.getIdentity P token).bind fun i => (checkMembership i gids).bind fun _ => (s.getUser P uid).bind K).outcome = none) :
    LinS DR j ((s.getIdentity P token).bind fun i => (checkMembership i gids).bind fun _ => (s.getUser P uid).bind K) none g w := by
  subst htok'
  refine dir_identity L hf hc rfl hstep hidle hne fun g1 w1 me u t hinv h1 h2 htok hu hall => ?_
  have hcal := hinv.caller hu hall
  rw [checkMembership_eq]
  cases hmem : gids.all (fun g => decide (g = me ∨ g ∈ u.groups)) with
  | false =>
    refine ⟨some (· = .err .idNotAuthorized), [], by simp, moveS_same rfl hc ?_, fun g2 w2 hrel => dir_fail rfl ((idle_hold _ _).stable hrel)⟩
    exact hcal.step h1 h2 htok hstep (r := .error .idNotAuthorized) [] (by simp only [hmem, Bool.false_eq_true, if_false]; rfl) (by simp) (by simp)
  | true =>
    refine ⟨none, [me], ?_, moveS_stay rfl, fun g2 w2 hrel => ?_⟩
    · simp only [List.mem_singleton, forall_eq]
      exact ⟨(hinv.named me u hu).1, hus me (.inr ⟨_, htok⟩)⟩
    · have hcal' : Caller (g1.hold j none [me]) me u := ⟨hu, hcal.groups⟩
      have hcal2 := hcal'.stable hrel (by simp [DirGhost.hold])
      have hrd2 : g2.rd j = [me] := by rw [hrel.rd]; simp [DirGhost.hold]
      have hp2 : g2.pend j = none := by rw [hrel.pend]; simp [DirGhost.hold]
      rw [if_pos rfl, ret_bind, getUser_op, op_bind]
      refine dir_step fun g3 w3 hrel3 hinv3 _ ht3 => ?_
      have hcal3 := hcal2.stable hrel3 (by simp [hrd2])
      have hp3 := hrel3.pend.trans hp2
      have husr := hinv3.users uid
      cases hv : g3.v.users uid with
      | none =>
        rw [hv] at husr
        obtain ⟨r, hr1, hr2⟩ := exec_getUser_none (P := P) (s := s) hf husr
        obtain ⟨m1, m2⟩ := dir_quiet (w' := ⟨w3.store, w3.t + 1⟩) hinv3 rfl (fun _ => ⟨rfl, rfl⟩) hc (r := []) (by simp) hp3.symm
        refine ⟨r, _, hr1, g3.hold j none [], some (· = .err .userNotFound), moveS_same rfl hc ?_, m1, m2, ?_⟩
        · exact hcal3.step h1 h2 htok hstep (r := .error .userNotFound) [] (by simp only [hmem, if_true, hv]; rfl) (by simp) (by simp)
        · rw [hr2]
          exact dir_fail rfl (idle_hold _ _)
      | some y =>
        rw [hv] at husr
        obtain ⟨r, x, hr1, hr2, hash, rfl, hcmp⟩ := exec_getUser_some L hf husr
        obtain ⟨_, _, _, _, _, hsan, hnd, hgs⟩ := husr
        have hny := hinv3.named uid y hv
        obtain ⟨m1, m2⟩ := dir_quiet (w' := ⟨w3.store, w3.t + 1⟩) hinv3 rfl (fun _ => ⟨rfl, rfl⟩) hc (r := [me, uid])
          (by
            intro x hx
            rcases List.mem_cons.mp hx with rfl | hx
            · exact ⟨(hinv3.named _ _ hcal3.user).1, hus _ (.inr ⟨_, htok⟩)⟩
            · rw [List.mem_singleton] at hx
              subst hx
              exact ⟨hny.1, hus _ (.inl rfl)⟩) hp3.symm
        refine ⟨r, _, hr1, g3.hold j none [me, uid], none, moveS_stay rfl, m1, m2, ?_⟩
        rw [hr2, ret_bind, hK]
        have hmine : ∀ x ∈ gids, g3.used x ∧ sanitize x = x := by
          intro x hx
          have := List.all_eq_true.mp hmem x hx
          simp only [decide_eq_true_eq] at this
          have hme := hinv3.users me
          rw [hcal3.user] at hme
          obtain ⟨_, _, _, _, _, hsan', _, hgs'⟩ := hme
          rcases this with rfl | h
          · exact ⟨(hinv3.named _ _ hcal3.user).1, hsan'⟩
          · exact ⟨(hcal3.groups x h).1, hgs' x h⟩
        refine dir_putUser L hf hr hc (u := { y with groups := upd y.groups }) (.inl ⟨rfl, by simp [DirGhost.hold], ?_, hwr⟩) ⟨hash, rfl, hcmp⟩ hsan
          (hn _ hnd) (fun z hz => ?_) (fun z hz => .inl ?_) (fun g4 w4 hrel4 hinv4 => ?_) (o := .ok .unit) rfl
        · show g3.v.users uid ≠ none
          rw [hv]; simp
        · exact (hm _ z hz).elim (hgs z) fun h => (hmine z h).2
        · exact (hm _ z hz).elim (hny.2 z) fun h => (hmine z h).1
        · have hcal3' : Caller (g3.hold j none [me, uid]) me u := ⟨hcal3.user, hcal3.groups⟩
          have hcal4 := hcal3'.stable hrel4 (by simp [DirGhost.hold])
          have hu4 : g4.v.users uid = some y := (hrel4.user uid (by simp [DirGhost.hold])).trans hv
          have hp4 : g4.pend j = none := by rw [hrel4.pend]; simp [DirGhost.hold]
          refine ⟨g4.v.setUser uid (some { y with groups := upd y.groups }), fun _ => rfl, fun _ _ => rfl,
            fun id h => by (rw [hp4] at h; cases h), ?_⟩
          exact hcal4.step h1 h2 htok hstep (r := .ok .unit) [] (by simp only [hmem, if_true, hu4]) (by simp) (by simp)

include L in
theorem lin_newGroup (hf : NoFault env) (hr : RandOk env) {token : GoString} {scopes : List Scope} (hc : calls[j]? = some (.newGroup token scopes))
    {g : DirGhost} {w : World} (hidle : Idle g j) (hne : (dirProg P s (.newGroup token scopes)).outcome = none) :
    LinS DR j (dirProg P s (.newGroup token scopes)) none g w := by
  have hstep : ∀ (v : Dir) inp, dirStep v inp (.newGroup token scopes) = v.asCaller inp.who fun me u => match v.groups inp.newId with
    | some _ => (.error .groupAlreadyExists, v)
    | none => (.ok (.group inp.newId), (v.setGroup inp.newId (allScopes scopes)).setUser me (some { u with groups := addAll u.groups [inp.newId] })) :=
    fun _ _ => rfl
  simp only [dirProg, Standalone.newGroup, newV4, randBytes, Prog.bind_eq, Prog.bind_assoc, Prog.pure_eq, ret_bind, op_bind] at hne ⊢
  refine dir_identity L hf hc rfl hstep hidle hne fun g1 w1 me u t hinv h1 h2 htok hu hall => ?_
  have hcal := hinv.caller hu hall
  refine ⟨none, [me], ?_, moveS_stay rfl, fun g2 w2 hrel => ?_⟩
  · simp only [List.mem_singleton, forall_eq]
    exact ⟨(hinv.named me u hu).1, _, htok⟩
  have hcal' : Caller (g1.hold j none [me]) me u := ⟨hu, hcal.groups⟩
  have hcal2 := hcal'.stable hrel (by simp [DirGhost.hold])
  have hrd2 : g2.rd j = [me] := by rw [hrel.rd]; simp [DirGhost.hold]
  have hp2 : g2.pend j = none := by rw [hrel.pend]; simp [DirGhost.hold]
  -- the name is drawn
  refine dir_step fun g3 w3 hrel3 hinv3 _ ht3 => ⟨_, _, exec_rand _ _, ?_⟩
  have hcal3 := hcal2.stable hrel3 (by simp [hrd2])
  obtain ⟨b, hb⟩ := Option.isSome_iff_exists.mp (hr w3.t 16)
  obtain ⟨m1, m2⟩ := dir_reserve hinv3 (hrel3.pend.trans hp2) ht3 hb
  have hnone : w3.store (newName b) dtGroup = none := by
    obtain ⟨⟨hf1, hf2⟩, -⟩ := hinv3.fresh w3.t b (Nat.le_refl _) ht3 hb
    have := hinv3.groups (newName b) hf2
    rw [(hinv3.unused hf1).2] at this
    exact this
  have hrd3 : (g3.hold j (some (newName b)) (g3.rd j)).rd j = [me] := by simp [DirGhost.hold, hrel3.rd, hrd2]
  have hp3 : (g3.hold j (some (newName b)) (g3.rd j)).pend j = some (newName b) := by simp [DirGhost.hold]
  refine ⟨g3.hold j (some (newName b)) (g3.rd j), none, moveS_stay rfl, m1, m2, ?_⟩
  have hcal3' : Caller (g3.hold j (some (newName b)) (g3.rd j)) me u := ⟨hcal3.user, hcal3.groups⟩
  generalize g3.hold j (some (newName b)) (g3.rd j) = g3' at hrd3 hp3 hcal3'
  rw [hb]
  simp only [ret_bind, Standalone.putGroup, Group.seal, Prog.bind_eq, Prog.bind_assoc, Prog.pure_eq, op_bind]
  refine dir_seal L hr fun k n g4 w4 hrel4 => ?_
  have hcal4 := hcal3'.stable hrel4 (by simp [hrd3])
  have hp4 := hrel4.pend.trans hp3
  have hrd4 := hrel4.rd.trans hrd3
  have hnone4 : w4.store (newName b) dtGroup = none := (hrel4.mine _ hp3).trans hnone
  show LinS DR j ((ioPut (onAlreadyExists .groupAlreadyExists) (newName b) dtGroup
    (sealedGroup P s (newName b) (D1.newGroup scopes) k n).toJ.render).bind fun _ => (s.getUser P me).bind fun user =>
      (Prog.ofPanic (user.addGroups [newName b])).bind fun user => (s.putUser P me user true).bind fun _ => .ret (.group (newName b))) none g4 w4
  -- the group is written
  rw [ioPut, op_bind]
  refine dir_step fun g5 w5 hrel5 hinv5 _ _ => ?_
  have hcal5 := hcal4.stable hrel5 (by simp [hrd4])
  have hp5 := hrel5.pend.trans hp4
  have hrd5 := hrel5.rd.trans hrd4
  have hnone5 : w5.store (newName b) dtGroup = none := (hrel5.mine _ hp4).trans hnone4
  have he : w5.exec env (.put (newName b) dtGroup (sealedGroup P s (newName b) (D1.newGroup scopes) k n).toJ.render) =
      (.ok (), ⟨w5.store.set (newName b) dtGroup (some (sealedGroup P s (newName b) (D1.newGroup scopes) k n).toJ.render), w5.t + 1⟩) := by
    rw [exec_none hf]
    simp only [Store.exec, hnone5]
  obtain ⟨n1, n2⟩ := dir_putGroup hinv5 hc hp5 (some (sealedGroup P s (newName b) (D1.newGroup scopes) k n).toJ.render)
  refine ⟨_, _, he, g5, none, moveS_stay rfl, n1, n2, ?_⟩
  show LinS DR j ((s.getUser P me).bind fun user => (Prog.ofPanic (user.addGroups [newName b])).bind fun user =>
    (s.putUser P me user true).bind fun _ => .ret (.group (newName b))) none g5
      ⟨w5.store.set (newName b) dtGroup (some (sealedGroup P s (newName b) (D1.newGroup scopes) k n).toJ.render), w5.t + 1⟩
  -- the caller joins it
  rw [getUser_op, op_bind]
  refine dir_step fun g6 w6 hrel6 hinv6 _ _ => ?_
  have hcal6 := hcal5.stable hrel6 (by simp [hrd5])
  have hp6 := hrel6.pend.trans hp5
  have hrd6 := hrel6.rd.trans hrd5
  have hg6 : w6.store (newName b) dtGroup = some (sealedGroup P s (newName b) (D1.newGroup scopes) k n).toJ.render :=
    (hrel6.mine _ hp5).trans (Store.set_same _ _ _ _)
  have husr := hinv6.users me
  rw [hcal6.user] at husr
  obtain ⟨r, x, hr1, hr2, hash, rfl, hcmp⟩ := exec_getUser_some L hf husr
  obtain ⟨_, _, _, _, _, hsan, hnd, hgs⟩ := husr
  obtain ⟨q1, q2⟩ := dir_still (w' := ⟨w6.store, w6.t + 1⟩) hinv6 rfl fun _ => ⟨rfl, rfl⟩
  refine ⟨r, _, hr1, g6, none, moveS_stay rfl, q1, fun i _ => q2 i, ?_⟩
  rw [hr2]
  simp only [ret_bind, User.addGroups, addToSet_some, Option.map_some, Prog.ofPanic_some]
  refine dir_putUser L hf hr hc (u := { u with groups := addAll u.groups [newName b] })
    (.inl ⟨rfl, by simp [hrd6], by rw [hcal6.user]; simp, _, htok⟩) ⟨hash, rfl, hcmp⟩ hsan
    (foldl_setInsert_nodup _ hnd) (fun z hz => ?_) (fun z hz => ?_) (fun g7 w7 hrel7 hinv7 => ?_) (o := .ok (.group (newName b))) rfl
  · rcases (mem_foldl_setInsert _ _ _).mp hz with hz | hz
    · exact hgs z hz
    · rw [List.mem_singleton] at hz
      rw [hz]
      exact sanitize_uuidText _
  · rcases (mem_foldl_setInsert _ _ _).mp hz with hz | hz
    · exact .inl (hcal6.groups z hz).1
    · rw [List.mem_singleton] at hz
      rw [hz]
      exact .inr hp6
  · have hcal7 := hcal6.stable hrel7 (by simp [hrd6])
    have hp7 := hrel7.pend.trans hp6
    have hg7 : w7.store (newName b) dtGroup = some (sealedGroup P s (newName b) (D1.newGroup scopes) k n).toJ.render :=
      (hrel7.mine _ hp6).trans hg6
    have hnew := (hinv7.unused (hinv7.pend j _ hp7).1).2
    refine ⟨(g7.v.setGroup (newName b) (allScopes scopes)).setUser me (some { u with groups := addAll u.groups [newName b] }), fun _ => rfl,
      fun id h => ?_, fun id h => ?_, ?_⟩
    · show (if id = newName b then _ else _) = _
      rw [if_neg]
      rintro rfl
      exact h hp7
    · rw [hp7] at h
      cases h
      show GroupRel P s w7.store (newName b) (if newName b = newName b then some (allScopes scopes) else _)
      rw [if_pos rfl, ← scopeUnion_eq]
      exact ⟨k, n, hg7, sanitize_uuidText _⟩
    · exact hcal7.step h1 h2 htok hstep (r := .ok (.group (newName b))) (newName b) (by simp only [inAt, hnew]) (by simp) (by simp)

include L in
theorem lin_dirCall (hf : NoFault env) (hr : RandOk env) (hc : calls[j]? = some c) {g : DirGhost} {w : World} (hidle : Idle g j)
    (hne : (dirProg P s c).outcome = none) : LinS DR j (dirProg P s c) none g w := by
  cases c with
  | newUser sc => exact lin_newUser L hf hr hc hidle
  | loginUser u p => exact lin_login L hf hr hc hidle
  | changePassword u p => exact lin_changePassword L hf hr hc hidle
  | newGroup t sc => exact lin_newGroup L hf hr hc hidle hne
  | deleteUser t u => exact lin_deleteUser L hf hc hidle hne
  | getIdentity t => exact lin_getIdentity L hf hc hidle hne
  | addUser t u gs =>
    simp only [dirProg, Standalone.addUserToGroups, Prog.bind_eq, Prog.bind_assoc] at hne ⊢
    refine lin_change L hf hr hc rfl rfl (fun _ h => h) (upd := fun l => addAll l gs) (fun l h => foldl_setInsert_nodup _ h)
      (fun l x h => (mem_foldl_setInsert _ _ _).mp h) (fun _ _ => rfl) (fun hash sc l => ?_) hidle hne
    simp only [User.addGroups, addToSet_some, Option.map_some, Prog.ofPanic_some, ret_bind]
    rfl
  | removeUser t u gs =>
    simp only [dirProg, Standalone.removeUserFromGroups, Prog.bind_eq, Prog.bind_assoc] at hne ⊢
    refine lin_change L hf hr hc rfl rfl (fun _ h => h) (upd := fun l => l.filter fun g => !gs.contains g) (fun l h => h.filter _)
      (fun l x h => .inl (List.mem_filter.mp h).1) (fun _ _ => rfl) (fun hash sc l => ?_) hidle hne
    simp only [User.removeGroups, removeFromSet, Option.map_some, foldl_setErase_eq]

end
end

/-- C71.  Any calls run concurrently on an IO Provider that does not fail, callers may crash, the names drawn are new, and no two conflicting
calls are ever in progress at the same time.  Then there is an order `l` of calls and their results such that
* the directory gives these results when the calls are made one after the other in this order;
* the order agrees with real time: at any moment `n`, the calls that have ended so far are in the first part of it, with the results they
  reported, and the calls that have not begun are not;
* at the end the store represents the directory: all users, all groups that exist, and nothing else unless a group is being created.
For calls that conflict this is false: `C70_revoked_member_returns`, `C70_password_change_lost`. -/
theorem C71_linearizable {P : Prims} (L : P.Laws) {s : Standalone} {env : Env} (hf : NoFault env) (hr : RandOk env) {v : Dir} {w : World}
    (hR : DirRel P s w.store v) (calls : List DirCall) (sch : List Nat) (hfresh : FreshNames env v w.t (w.t + sch.length))
    (hno : ∀ n, n < sch.length → ∀ i j a b, i ≠ j → calls[i]? = some a → calls[j]? = some b →
      InProgress env sch w (calls.map (dirProg P s)) n i → InProgress env sch w (calls.map (dirProg P s)) n j → ¬ DirConflict P s a b) :
    ∃ l v', LinRun (fun j v out v' => ∃ c, calls[j]? = some c ∧ DirStep P s env w.t (w.t + sch.length) c v out v') l v v' ∧
      (l.map Prod.fst).Nodup ∧ (∀ j out, (j, out) ∈ l → j ∈ sch) ∧
      (∀ n, ∃ l1 l2, l = l1 ++ l2 ∧
        (∀ j out, (j, out) ∈ commits env (sch.take n) w (calls.map (dirProg P s)) → (j, out) ∈ l1) ∧
        ∀ j out, (j, out) ∈ l1 → j ∈ sch.take n) ∧
      (∀ uid, UserRel P s (sched env sch w (calls.map (dirProg P s))).1.store uid (v'.users uid)) ∧
      (∀ gid sc, v'.groups gid = some sc → GroupAt P s (sched env sch w (calls.map (dirProg P s))).1.store gid sc) ∧
      ((∀ j t sc, calls[j]? = some (.newGroup t sc) → ¬ InProgress env sch w (calls.map (dirProg P s)) sch.length j) →
        DirRel P s (sched env sch w (calls.map (dirProg P s))).1.store v') := by
  obtain ⟨_, l, g', h1, h2, h3, -, h4, h5, h6⟩ := LinS.sched (R := dirRules P s env calls w.t (w.t + sch.length)) sch
    (g := ⟨v, fun x => v.users x ≠ none ∨ v.groups x ≠ none ∨ ∃ uid u, v.users uid = some u ∧ x ∈ u.groups, fun _ => none, fun _ => []⟩)
    (w := w) (ps := calls.map (dirProg P s)) (ds := fun _ => none) (S := fun _ => False)
    (by
      refine ⟨hR.1, fun gid _ => hR.2 gid, fun uid u h => ⟨.inl (by rw [show v.users uid = some u from h]; simp), fun x hx => .inr (.inr ⟨uid, u, h, hx⟩)⟩,
        fun gid h => .inr (.inl h), (fun i id h => by cases h), (fun i uid h => by cases h), Nat.le_refl _, fun t b h1 h2 h3 => ?_⟩
      obtain ⟨k1, k2, k3, k4⟩ := hfresh t b h1 h2 h3
      refine ⟨⟨?_, (fun i h => by cases h)⟩, k4⟩
      rintro (h | h | ⟨uid, u, h, h'⟩)
      · exact h k1
      · exact h k2
      · exact k3 uid u h h')
    (by
      intro j p hp hpo
      rw [List.getElem?_map, Option.map_eq_some_iff] at hp
      obtain ⟨c, hc, rfl⟩ := hp
      exact lin_dirCall L hf hr hc ⟨rfl, rfl⟩ hpo)
    (fun j D h => by cases h) (fun i h => absurd h (Idle.not_holds ⟨rfl, rfl⟩)) (Nat.le_refl _)
    (by
      rintro n hn i j hij ⟨hi1, hi2⟩ ⟨hj1, hj2⟩ ⟨a, b, ha, hb, hc⟩
      exact hno n hn i j a b hij ha hb ⟨hi1.resolve_left id, hi2⟩ ⟨hj1.resolve_left id, hj2⟩ hc)
  have hgr : ∀ gid, g'.v.groups gid ≠ none → GroupRel P s (sched env sch w (calls.map (dirProg P s))).1.store gid (g'.v.groups gid) :=
    fun gid h => DirInv.group h4 (h4.existing gid h)
  refine ⟨l, g'.v, h1, h2, fun j o h => (h3 j o h).2, fun n => ?_, h4.users, fun gid sc h => ?_, fun hq => ⟨h4.users, fun gid => ?_⟩⟩
  · obtain ⟨l1, l2, h7, h8, h9⟩ := h6 n
    exact ⟨l1, l2, h7, fun j o h => (h8 j o h).resolve_right (by simp), h9⟩
  · have := hgr gid (by rw [h]; simp)
    rw [h] at this
    exact this
  · by_cases hp : ∃ i, g'.pend i = some gid
    · obtain ⟨i, hi⟩ := hp
      obtain ⟨hs, hpr⟩ := h5 i (.inl (by rw [hi]; simp))
      have hb : InProgress env sch w (calls.map (dirProg P s)) sch.length i := by
        refine ⟨?_, ?_⟩
        · rw [List.take_of_length_le (by omega)]; exact hs.resolve_left id
        · rw [List.take_length]; exact hpr
      obtain ⟨k1, k2, -⟩ := h4.pend i gid hi
      rw [(h4.unused k1).2]
      rcases k2 with k2 | ⟨t, sc, k2⟩
      · exact k2
      · exact absurd hb (hq i t sc k2)
    · exact h4.groups gid fun i hi => hp ⟨i, hi⟩

end D1
