import Mathlib.Data.List.Dedup
import Verif.Props.Library
/-!
# C121: nothing is left behind
-/
namespace D1
open Spec Prog

/-! ## Specification -/

/-- The store holds a record of every object, access list, user and group of the library, one node for every identifier in the index, and
nothing else. -/
structure HoldsOnly (K : List GoString) (l : Library) (st : Store) : Prop where
  objects : ∀ x, st x dtObject ≠ none ↔ ∃ oid, oid.1 = x ∧ l.objects oid ≠ none
  access : ∀ x, st x dtAccess ≠ none ↔ ∃ oid, oid.1 = x ∧ l.objects oid ≠ none
  users : ∀ x, st x dtUser ≠ none ↔ l.users x ≠ none
  groups : ∀ x, st x dtGroup ≠ none ↔ l.groups x ≠ none
  nodes : ∃ places : List Bytes, places.Nodup ∧ (∀ x, st x dtNode ≠ none ↔ x ∈ places) ∧
    places.length = (K.dedup.map fun kw => (l.index kw).length).sum
  others : ∀ x dt, dt ≠ dtObject → dt ≠ dtAccess → dt ≠ dtUser → dt ≠ dtGroup → dt ≠ dtNode → st x dt = none

/-! ## Proofs -/

/-- Where records may be. -/
def Proper (P : Prims) (i : SecureIndex) (K : List GoString) (N : Nat) (x : Bytes) (dt : DataType) : Prop :=
  ((dt = dtObject ∨ dt = dtAccess) ∧ ∃ oid : Oid, oid.1 = x) ∨ dt = dtUser ∨ dt = dtGroup ∨
    (dt = dtNode ∧ ∃ kw ∈ K, ∃ c ≤ N, x = ixLabel P i kw c)

/-- Records are only made where `R` says. -/
def MakesAt (R : Bytes → DataType → Prop) (e : Eff) : Prop := ∀ x dt b, e = .put x dt b → R x dt

section
variable {P : Prims} (L : P.Laws) {d : D1} {i : SecureIndex} {s : Standalone} {fuel : Nat} {env : Env} {R : Bytes → DataType → Prop}

theorem makesAt_exec {e : Eff} (h : MakesAt R e) (hf : NoFault env) {w : World} (hw : ∀ x dt, w.store x dt ≠ none → R x dt) :
    ∀ x dt, (w.exec env e).2.store x dt ≠ none → R x dt := by
  rw [exec_none hf]
  intro x dt
  cases e with
  | put id dt' b =>
    simp only [Store.exec]
    cases hs : w.store id dt' with
    | some _ => exact hw x dt
    | none =>
      simp only [Store.set]
      split
      · rename_i hx; intro _; obtain ⟨rfl, rfl⟩ := hx; exact h _ _ _ rfl
      · exact hw x dt
  | get id dt' => simp only [Store.exec]; split <;> exact hw x dt
  | update id dt' b =>
    simp only [Store.exec]
    cases hs : w.store id dt' with
    | none => exact hw x dt
    | some _ =>
      simp only [Store.set]
      split
      · rename_i hx; intro _; obtain ⟨rfl, rfl⟩ := hx; exact hw _ _ (by rw [hs]; simp)
      · exact hw x dt
  | delete id dt' =>
    simp only [Store.exec, Store.set]
    split
    · exact fun h => absurd rfl h
    · exact hw x dt
  | rand n => exact hw x dt
  | now => exact hw x dt

theorem makes_run {α : Type} {p : Prog α} (h : AllEff (MakesAt R) p) (hf : NoFault env) {w : World} (hw : ∀ x dt, w.store x dt ≠ none → R x dt) :
    ∀ x dt, (p.run env w).2.store x dt ≠ none → R x dt := by
  induction p generalizing w with
  | op e k ih => rw [run_op]; exact ih _ (h.2 _) (makesAt_exec h.1 hf hw)
  | _ => exact hw

theorem makes_identity (t : GoString) : AllEff (MakesAt R) (s.getIdentity P t) :=
  allEff_getIdentity (by simp [MakesAt]) (by simp [MakesAt]) (by simp [MakesAt]) t

theorem makes_dir (hu : ∀ x, R x dtUser) (hg : ∀ x, R x dtGroup) (c : DirCall) : AllEff (MakesAt R) (dirProg P s c) := by
  have hr : ∀ n, MakesAt R (.rand n) := by simp [MakesAt]
  have hn : MakesAt R .now := by simp [MakesAt]
  have hgt : ∀ y dt, MakesAt R (.get y dt) := by simp [MakesAt]
  have h1 : ∀ y b, MakesAt R (.put y dtUser b) := by rintro y b _ _ _ ⟨⟩; exact hu _
  have h2 : ∀ y b, MakesAt R (.update y dtUser b) := by simp [MakesAt]
  have h3 : ∀ y b, MakesAt R (.put y dtGroup b) := by rintro y b _ _ _ ⟨⟩; exact hg _
  have h4 : ∀ y, MakesAt R (.delete y dtUser) := by simp [MakesAt]
  cases c with
  | newUser sc => exact .bind (allEff_newUser hr h1 h2 sc) fun _ => trivial
  | loginUser u p => exact .bind (allEff_loginUser hr hn (hgt _ _) p) fun _ => trivial
  | changePassword u p => exact .bind (allEff_changeUserPassword hr (hgt _ _) (h1 _) (h2 _) p) fun _ => trivial
  | newGroup t sc => exact .bind (allEff_newGroup hr hn (fun _ => hgt _ _) (fun _ => hgt _ _) h1 h2 h3 t sc) fun _ => trivial
  | addUser t u gs => exact .bind (allEff_addUserToGroups hr hn (fun _ => hgt _ _) (fun _ => hgt _ _) (h1 _) (h2 _) t gs) fun _ => trivial
  | removeUser t u gs => exact .bind (allEff_removeUserFromGroups hr hn (fun _ => hgt _ _) (fun _ => hgt _ _) (h1 _) (h2 _) t gs) fun _ => trivial
  | deleteUser t u => exact .bind (allEff_deleteUser hn (fun _ => hgt _ _) (fun _ => hgt _ _) (h4 _) t) fun _ => trivial
  | getIdentity t => exact .bind (allEff_getIdentity hn (fun _ => hgt _ _) (fun _ => hgt _ _) t) fun _ => trivial

theorem makes_call (hd : d.idProvider = s.getIdentity P) (ho : ∀ (oid : Oid) dt, dt = dtObject ∨ dt = dtAccess → R oid.1 dt) (c : Call) :
    AllEff (MakesAt R) (callProg P d c) := by
  have hi : AllEff (MakesAt R) (d.idProvider c.token) := by rw [hd]; exact makes_identity _
  have hr : ∀ n, MakesAt R (.rand n) := by simp [MakesAt]
  have key : (∃ oid, c.onOid = some oid) → AllEff (MakesAt R) (callProg P d c) := by
    rintro ⟨oid, hoid⟩
    refine allEff_call c hi hr fun e dt h1 h2 h3 => ?_
    rintro x dt' b rfl
    have h3 := h3 oid hoid
    simp only [Eff.dataType, Eff.entry, Option.some.injEq] at h1 h3
    subst h1 h3
    exact ho oid _ h2
  cases c with
  | encrypt t o gs =>
    refine AllEff.bind (AllEff.bind (allEff_verifyAccess hi _) fun _ => AllEff.bind (allEff_newV4 hr) fun oid => ?_) fun _ => trivial
    simp only [Prog.bind_eq, sealObject_bind, sealAccess_bind]
    refine AllEff.bind (allEff_encrypt hr _ _ _) fun r => AllEff.bind (allEff_ofPanic _) fun a =>
      AllEff.bind (allEff_encrypt hr _ _ _) fun r' => AllEff.bind (allEff_ioPut ?_) fun _ => AllEff.bind (allEff_ioPut ?_) fun _ => trivial
    · rintro _ _ _ ⟨⟩; exact ho _ _ (.inl rfl)
    · rintro _ _ _ ⟨⟩; exact ho _ _ (.inr rfl)
  | _ => exact key ⟨_, rfl⟩

theorem makes_deleteLoop (t : Tagger) (c : Cryptor) (x : GoString) (fuel : Nat) (n : Node) : AllEff (MakesAt R) (deleteLoop P t c x fuel n) := by
  have hr : ∀ n, MakesAt R (.rand n) := by simp [MakesAt]
  have hg : ∀ y, MakesAt R (.get y dtNode) := by simp [MakesAt]
  have hd : ∀ y, MakesAt R (.delete y dtNode) := by simp [MakesAt]
  have hu : ∀ y b, MakesAt R (.update y dtNode b) := by simp [MakesAt]
  induction fuel generalizing n with
  | zero => trivial
  | succ fuel ih =>
    refine AllEff.attempt (allEff_getNextNode hg n t c) fun r => ?_
    rcases r with e | a
    · cases e <;> trivial
    · simp only
      split
      · refine AllEff.bind (allEff_ofPanic _) fun _ => AllEff.bind (AllEff.attempt (allEff_getNextNode hg _ t c) fun r => ?_) fun _ => ih n
        rcases r with e | a
        · cases e <;> first | trivial | exact allEff_ioDelete (hd _)
        · exact AllEff.bind (AllEff.bind (allEff_encrypt hr _ _ _) fun _ => trivial) fun _ => AllEff.bind (allEff_ioUpdate (hu _ _)) fun _ =>
            AllEff.bind (allEff_ofPanic _) fun _ => allEff_ioDelete (hd _)
      · exact ih a

include L in
theorem makes_index (hk : i.indexKey.length = 32) (hi : i.idProvider = s.getIdentity P) (hf : NoFault env) (hr : RandOk env) {K : List GoString} {N : Nat}
    (hfuel : N < fuel) {x : Index} {a : Nat} (haN : a < N) (c : IxCall) (hc : c.keyword ∈ K) {w : World} (h : IxRel P i K N w.store x a)
    (hR : ∀ kw ∈ K, ∀ n ≤ N, R (ixLabel P i kw n) dtNode) (hw : ∀ x dt, w.store x dt ≠ none → R x dt) :
    ∀ x dt, ((ixProg P i fuel c).run env w).2.store x dt ≠ none → R x dt := by
  have hv : AllEff (MakesAt R) (i.verifyAccess c.token) := allEff_ixVerifyAccess (by rw [hi]; exact makes_identity _)
  rw [ixProg_eq L hk]
  cases c with
  | search t kw =>
    have hp : AllEff (MakesAt R) (ixBody P i fuel (.search t kw)) := .bind (allEff_searchLoop (by simp [MakesAt]) _ _ _ _ _) fun _ => trivial
    exact makes_run (AllEff.bind hv fun _ => hp) hf hw
  | delete t kw id =>
    have hp : AllEff (MakesAt R) (ixBody P i fuel (.delete t kw id)) := .bind (makes_deleteLoop _ _ _ _ _) fun _ => trivial
    exact makes_run (AllEff.bind hv fun _ => hp) hf hw
  | add t kw id =>
    have hw1 := makes_run hv hf hw
    obtain ⟨w1, hs, hv1⟩ := run_ixVerifyAccess (env := env) (standalone_ixIdp hi) t w
    have h1 := h.congr hs
    have hrun : ∃ o, (i.verifyAccess t).run env w = (o, w1) := by
      cases hq : ixWho i env w t with
      | none => rw [hq] at hv1; exact ⟨_, hv1⟩
      | some y => rw [hq] at hv1; simp only at hv1; split at hv1 <;> exact ⟨_, hv1⟩
    obtain ⟨o, ho⟩ := hrun
    simp only [IxCall.token] at hw1 ⊢
    rw [ho] at hw1
    cases o with
    | err e => rw [run_bind_err env ho]; exact hw1
    | panic => rw [run_bind, ho]; exact hw1
    | diverge => rw [run_bind, ho]; exact hw1
    | ok u =>
      rw [run_bind_ok env ho]
      obtain ⟨l, e, g1, g2, g3, g4, g5⟩ := h1 kw hc
      have hle := g1.length_le
      obtain ⟨k, nn, t', hadd⟩ := run_addBody L hf hr g1 (g4 e (by omega) fun hm => by
        obtain ⟨p, hp, hpe⟩ := List.mem_map.mp hm
        have := g1.mem p hp
        omega) (fuel := fuel) (by omega) id
      rw [ixBody, run_bind_ok env hadd]
      intro y dt
      simp only [run_ret, Store.set]
      split
      · rename_i hy; intro _; obtain ⟨rfl, rfl⟩ := hy; exact hR kw hc e (by omega)
      · exact hw1 y dt

theorem makes_token {c : LibCall} (h : ∀ x, R x dtUser) (h' : ∀ x, R x dtGroup) (hc : (∃ p, c = .createToken p) ∨ (∃ t, c = .tokenContents t) ∨ ∃ x, c = .dir x) :
    AllEff (MakesAt R) (libProg P d i s fuel c) := by
  have hr : ∀ n, MakesAt R (.rand n) := by simp [MakesAt]
  have hn : MakesAt R .now := by simp [MakesAt]
  rcases hc with ⟨p, rfl⟩ | ⟨t, rfl⟩ | ⟨x, rfl⟩
  · refine AllEff.bind (p := d.createToken P p) ?_ fun _ => trivial
    exact AllEff.bind (AllEff.bind (allEff_now hn) fun _ => trivial) fun _ => AllEff.bind (allEff_encrypt hr _ _ _) fun _ => trivial
  · refine AllEff.bind (AllEff.mapErr ?_) fun _ => trivial
    exact AllEff.bind (allEff_tokenUnseal hn _ _) fun _ => trivial
  · have := makes_dir (P := P) (s := s) h h' x
    cases x with
    | loginUser u p => exact AllEff.bind (allEff_loginUser hr hn (by simp [MakesAt]) p) fun _ => trivial
    | _ => exact AllEff.bind this fun _ => trivial

include L in
/-- Every call keeps records where they belong. -/
theorem makes_lib (hd : d.idProvider = s.getIdentity P) (hi : i.idProvider = s.getIdentity P) (hk : i.indexKey.length = 32) (hf : NoFault env)
    (hr : RandOk env) {K : List GoString} {N : Nat} (hfuel : N < fuel) {l : Library} {w : World} {a : Nat} (haN : a < N)
    (h : LibRel P d i s K N w.store l a) (c : LibCall) (hc : ∀ kw ∈ c.keyword, kw ∈ K)
    (hw : ∀ x dt, w.store x dt ≠ none → Proper P i K N x dt) :
    ∀ x dt, ((libProg P d i s fuel c).run env w).2.store x dt ≠ none → Proper P i K N x dt := by
  have hu : ∀ x, Proper P i K N x dtUser := fun _ => .inr (.inl rfl)
  have hg : ∀ x, Proper P i K N x dtGroup := fun _ => .inr (.inr (.inl rfl))
  cases c with
  | dir x => exact makes_run (makes_token hu hg (.inr (.inr ⟨x, rfl⟩))) hf hw
  | createToken p => exact makes_run (makes_token hu hg (.inl ⟨p, rfl⟩)) hf hw
  | tokenContents t => exact makes_run (makes_token hu hg (.inr (.inl ⟨t, rfl⟩))) hf hw
  | d1 c =>
    have hp : AllEff (MakesAt (Proper P i K N)) (libProg P d i s fuel (.d1 c)) :=
      AllEff.bind (makes_call hd (fun oid dt hdt => .inl ⟨hdt, oid, rfl⟩) c) fun _ => trivial
    exact makes_run hp hf hw
  | index c =>
    have := makes_index L hk hi hf hr hfuel haN c (hc _ (by simp [LibCall.keyword])) h.index (R := Proper P i K N)
      (fun kw hkw n hn => .inr (.inr (.inr ⟨rfl, kw, hkw, n, hn, rfl⟩))) hw
    rw [show libProg P d i s fuel (.index c) = (ixProg P i fuel c).bind fun r => .ret (.index r) from rfl, run_bind]
    rcases hrun : (ixProg P i fuel c).run env w with ⟨o, w'⟩
    rw [hrun] at this
    cases o <;> exact this

include L in
theorem makes_client (hd : d.idProvider = s.getIdentity P) (hi : i.idProvider = s.getIdentity P) (hk : i.indexKey.length = 32) (hf : NoFault env)
    (hr : RandOk env) {K : List GoString} {N : Nat} (hN : N < 2 ^ 64) (ha : Apart P i K N) (hfuel : N < fuel) {α : Type} (p : Client α) {l : Library}
    {w : World} {a : Nat} (hlen : a + (clientCalls P d i s fuel env p w).length ≤ N)
    (hkw : ∀ c ∈ clientCalls P d i s fuel env p w, ∀ kw ∈ c.keyword, kw ∈ K) (h : LibRel P d i s K N w.store l a) (hh : Honest P d i s fuel env p w l)
    (hw : ∀ x dt, w.store x dt ≠ none → Proper P i K N x dt) :
    ∀ x dt, ((clientProg P d i s fuel p).run env w).2.store x dt ≠ none → Proper P i K N x dt := by
  induction p generalizing l w a with
  | done x => exact hw
  | call c k ih =>
    simp only [clientCalls, List.length_cons, List.mem_cons, forall_eq_or_imp] at hlen hkw
    obtain ⟨hh1, hh2⟩ := hh
    obtain ⟨w', h1, h2⟩ := run_libCall L hd hi hk hf hr hN ha hfuel (by omega) h c hkw.1 hh1
    have hw' := makes_lib L hd hi hk hf hr hfuel (by omega) h c hkw.1 hw
    rw [h1] at hh2 hw'
    simp only [h1, told_toOutcome] at hlen hkw
    simp only [clientProg]
    rw [run_attempt_toOutcome h1]
    exact ih _ (a := a + 1) (w := w') (by omega) hkw.2 h2 hh2 hw'

/-- The counters of a chain differ. -/
theorem path_nodup {M : Nat → Option (Except Err Node)} {c e : Nat} {l : List (Nat × GoString)} (h : Path M c l e) : (l.map Prod.fst).Nodup := by
  induction h with
  | nil c => simp
  | @cons c c' e x l h1 h2 h3 ih =>
    refine List.nodup_cons.mpr ⟨fun hm => ?_, ih⟩
    obtain ⟨p, hp, hpe⟩ := List.mem_map.mp hm
    have := h3.mem p hp
    simp only at hpe
    omega

theorem path_some {M : Nat → Option (Except Err Node)} {c e : Nat} {l : List (Nat × GoString)} (h : Path M c l e) : ∀ p ∈ l, M p.1 ≠ none := by
  induction h with
  | nil c => simp
  | @cons c c' e x l h1 h2 h3 ih =>
    intro p hp
    rcases List.mem_cons.mp hp with rfl | hp
    · simp [h1]
    · exact ih p hp

/-- The places of the nodes of some keywords. -/
theorem places_of {K : List GoString} {N : Nat} (ha : Apart P i K N) {st : Store} {x : Index} {a : Nat} (haN : a ≤ N) (h : IxRel P i K N st x a)
    (J : List GoString) (hJ : ∀ kw ∈ J, kw ∈ K) (hn : J.Nodup) : ∃ places : List Bytes, places.Nodup ∧
      (∀ y, y ∈ places ↔ st y dtNode ≠ none ∧ ∃ kw ∈ J, ∃ c ≤ N, y = ixLabel P i kw c) ∧ places.length = (J.map fun kw => (x kw).length).sum := by
  induction J with
  | nil => exact ⟨[], List.nodup_nil, by simp, rfl⟩
  | cons kw J ih =>
    obtain ⟨ps, h1, h2, h3⟩ := ih (fun k hk => hJ k (by simp [hk])) (List.nodup_cons.mp hn).2
    have hkw := hJ kw (by simp)
    obtain ⟨l, e, g1, g2, g3, g4, g5⟩ := h kw hkw
    have hb : ∀ c ∈ l.map Prod.fst, c ≤ N := by
      intro c hc
      obtain ⟨p, hp, rfl⟩ := List.mem_map.mp hc
      have := g1.mem p hp
      omega
    refine ⟨(l.map Prod.fst).map (ixLabel P i kw) ++ ps, ?_, fun y => ?_, ?_⟩
    · refine List.nodup_append.mpr ⟨?_, h1, ?_⟩
      · exact List.Nodup.map_on (fun c hc c' hc' he => (ha kw hkw kw hkw c (hb c hc) c' (hb c' hc') he).2) (path_nodup g1)
      · rintro y hy _ hy' rfl
        obtain ⟨c, hc, rfl⟩ := List.mem_map.mp hy
        obtain ⟨-, kw', hkw', c', hc', he⟩ := (h2 _).mp hy'
        obtain ⟨rfl, -⟩ := ha kw hkw kw' (hJ kw' (by simp [hkw'])) c (hb c hc) c' hc' he
        exact (List.nodup_cons.mp hn).1 hkw'
    · rw [List.mem_append, h2]
      constructor
      · rintro (hy | ⟨hy, kw', hkw', c, hc, rfl⟩)
        · obtain ⟨c, hc, rfl⟩ := List.mem_map.mp hy
          obtain ⟨p, hp, rfl⟩ := List.mem_map.mp hc
          exact ⟨fun h0 => path_some g1 p hp (nodes_none.mpr h0), kw, by simp, _, hb _ hc, rfl⟩
        · exact ⟨hy, kw', by simp [hkw'], c, hc, rfl⟩
      · rintro ⟨hy, kw', hkw', c, hc, rfl⟩
        rcases List.mem_cons.mp hkw' with rfl | hkw'
        · refine .inl (List.mem_map.mpr ⟨c, ?_, rfl⟩)
          by_contra hcl
          exact hy (nodes_none.mp (g4 c hc hcl))
        · exact .inr ⟨hy, kw', hkw', c, hc, rfl⟩
    · simp [h3, ← g2]

theorem holdsOnly {K : List GoString} {N : Nat} (ha : Apart P i K N) {st : Store} {l : Library} {a : Nat} (haN : a ≤ N)
    (h : LibRel P d i s K N st l a) (hp : ∀ x dt, st x dt ≠ none → Proper P i K N x dt) : HoldsOnly K l st := by
  have ho (oid : Oid) : (st oid.1 dtObject ≠ none ↔ l.objects oid ≠ none) ∧ (st oid.1 dtAccess ≠ none ↔ l.objects oid ≠ none) := by
    have := h.objects oid
    cases hv : l.objects oid with
    | none => rw [hv] at this; simp [this.1, this.2]
    | some e =>
      rw [hv] at this
      obtain ⟨_, ⟨_, _, _, _, h1, _⟩, ⟨_, _, h2, _⟩, _⟩ := this
      simp [h1, h2]
  have hoid {x : Bytes} {dt : DataType} (hdt : dt = dtObject ∨ dt = dtAccess) (hx : st x dt ≠ none) : ∃ oid : Oid, oid.1 = x := by
    rcases hp x dt hx with ⟨_, h⟩ | rfl | rfl | ⟨rfl, _⟩
    · exact h
    all_goals exact absurd hdt (by decide)
  obtain ⟨v, ⟨hu, hg⟩, hmu, hmg⟩ := h.dir
  refine ⟨fun x => ⟨fun hx => ?_, ?_⟩, fun x => ⟨fun hx => ?_, ?_⟩, fun x => ?_, fun x => ?_, ?_, fun x dt h1 h2 h3 h4 h5 => ?_⟩
  · obtain ⟨oid, rfl⟩ := hoid (.inl rfl) hx
    exact ⟨oid, rfl, (ho oid).1.mp hx⟩
  · rintro ⟨oid, rfl, hx⟩
    exact (ho oid).1.mpr hx
  · obtain ⟨oid, rfl⟩ := hoid (.inr rfl) hx
    exact ⟨oid, rfl, (ho oid).2.mp hx⟩
  · rintro ⟨oid, rfl, hx⟩
    exact (ho oid).2.mpr hx
  · have h1 := hu x
    have h2 := hmu x
    cases hl : l.users x with
    | none =>
      cases hv : v.users x with
      | none => rw [hv] at h1; simp only [UserRel] at h1; simp [h1]
      | some u => rw [hl, hv] at h2; exact h2.elim
    | some y =>
      cases hv : v.users x with
      | none => rw [hl, hv] at h2; exact h2.elim
      | some u => rw [hv] at h1; obtain ⟨_, _, _, h1, _⟩ := h1; simp [h1]
  · have h1 := hg x
    rw [← hmg]
    cases hv : v.groups x with
    | none => rw [hv] at h1; simp only [GroupRel] at h1; simp [h1]
    | some u => rw [hv] at h1; obtain ⟨_, _, h1, _⟩ := h1; simp [h1]
  · obtain ⟨ps, g1, g2, g3⟩ := places_of ha haN h.index K.dedup (fun kw hkw => List.mem_dedup.mp hkw) (List.nodup_dedup K)
    refine ⟨ps, g1, fun x => ⟨fun hx => (g2 x).mpr ⟨hx, ?_⟩, fun hx => ((g2 x).mp hx).1⟩, g3⟩
    rcases hp x dtNode hx with ⟨h, _⟩ | h | h | ⟨_, kw, hkw, c, hc, he⟩
    · exact absurd h (by decide)
    · exact absurd h (by decide)
    · exact absurd h (by decide)
    · exact ⟨kw, List.mem_dedup.mpr hkw, c, hc, he⟩
  · by_contra hx
    rcases hp x dt hx with ⟨h | h, _⟩ | h | h | ⟨h, _⟩ <;> contradiction

include L in
/-- C121: whatever a client did, starting with an empty store, afterwards the store holds exactly the records of what the library is left with: one
object record and one access record for every object, one record for every user and for every group, one node for every identifier in the index, and
nothing else.  Hypotheses as for C88. -/
theorem C121_holds (hd : d.idProvider = s.getIdentity P) (hi : i.idProvider = s.getIdentity P) (hk : i.indexKey.length = 32) (hf : NoFault env)
    (hr : RandOk env) {α : Type} (p : Client α) {w : World} (hw : ∀ x dt, w.store x dt = none)
    (hN : (clientCalls P d i s fuel env p w).length < 2 ^ 64) (hfuel : (clientCalls P d i s fuel env p w).length < fuel)
    (ha : Apart P i ((clientCalls P d i s fuel env p w).flatMap LibCall.keyword) (clientCalls P d i s fuel env p w).length)
    (hh : Honest P d i s fuel env p w emptyLibrary) :
    HoldsOnly ((clientCalls P d i s fuel env p w).flatMap LibCall.keyword) (p.play sanitize emptyLibrary (clientIns P d i s fuel env p w)).2
      ((clientProg P d i s fuel p).run env w).2.store := by
  have hkw : ∀ c ∈ clientCalls P d i s fuel env p w, ∀ kw ∈ c.keyword, kw ∈ (clientCalls P d i s fuel env p w).flatMap LibCall.keyword :=
    fun c hc kw hkw => List.mem_flatMap.mpr ⟨c, hc, hkw⟩
  obtain ⟨w', h1, h2⟩ := C88_from L hd hi hk hf hr hN ha hfuel p (a := 0) (by omega) hkw (libRel_empty hw) hh
  have h3 := makes_client L hd hi hk hf hr hN ha hfuel p (a := 0) (by omega) hkw (libRel_empty hw) hh (fun x dt h => absurd (hw x dt) h)
  rw [h1] at h3 ⊢
  exact holdsOnly ha (by omega) h2 h3

/-- The keys that a provider uses. -/
theorem keys_run {q : Provider KV} {key : Bytes → DataType → Bytes}
    (hput : ∀ id dt b m k, (q.put id dt b m).2 k ≠ none → m k ≠ none ∨ k = key id dt) (hget : ∀ id dt m, (q.get id dt m).2 = m)
    (hupd : ∀ id dt b m k, (q.update id dt b m).2 k ≠ none → m k ≠ none ∨ k = key id dt)
    (hdel : ∀ id dt m k, (q.delete id dt m).2 k ≠ none → m k ≠ none) {α : Type} (p : Prog α) {w : On KV}
    (hw : ∀ k, w.state k ≠ none → ∃ x dt, k = key x dt) : ∀ k, (p.runOn q env w).2.state k ≠ none → ∃ x dt, k = key x dt := by
  induction p generalizing w with
  | op e c ih =>
    simp only [Prog.runOn]
    refine ih _ ?_
    have hx : ∀ k, (q.exec w.state (env.rand w.t) (env.now w.t) e).2 k ≠ none → ∃ x dt, k = key x dt := by
      intro k
      cases e with
      | put id dt b => exact fun h => (hput id dt b _ k h).elim (hw k) fun h => ⟨_, _, h⟩
      | get id dt => simp only [Provider.exec, hget]; exact hw k
      | update id dt b => exact fun h => (hupd id dt b _ k h).elim (hw k) fun h => ⟨_, _, h⟩
      | delete id dt => exact fun h => hw k (hdel id dt _ k h)
      | rand n => exact hw k
      | now => exact hw k
    simp only [Provider.step]
    cases env.fault w.t
    · exact hx
    · exact hw
    · exact hx
  | _ => exact hw

include L in
/-- C121 on the library's own `Mem` provider: its map has these keys and no others. -/
theorem C121_mem (hd : d.idProvider = s.getIdentity P) (hi : i.idProvider = s.getIdentity P) (hk : i.indexKey.length = 32) (hf : NoFault env)
    (hr : RandOk env) {α : Type} (p : Client α)
    (hN : (clientCalls P d i s fuel env p (memView nothing)).length < 2 ^ 64) (hfuel : (clientCalls P d i s fuel env p (memView nothing)).length < fuel)
    (ha : Apart P i ((clientCalls P d i s fuel env p (memView nothing)).flatMap LibCall.keyword) (clientCalls P d i s fuel env p (memView nothing)).length)
    (hh : Honest P d i s fuel env p (memView nothing) emptyLibrary) :
    let m := ((clientProg P d i s fuel p).runOn memProvider env nothing).2.state
    HoldsOnly ((clientCalls P d i s fuel env p (memView nothing)).flatMap LibCall.keyword)
      (p.play sanitize emptyLibrary (clientIns P d i s fuel env p (memView nothing))).2 (fun x dt => m (memKey x dt)) ∧
    ∀ k, m k ≠ none → ∃ x dt, k = memKey x dt := by
  have h1 := C75_mem env (clientProg P d i s fuel p) nothing
  have h2 := C121_holds L hd hi hk hf hr p (w := memView nothing) (fun _ _ => rfl) hN hfuel ha hh
  rw [h1] at h2
  refine ⟨h2, keys_run ?_ ?_ ?_ ?_ _ (fun k h => absurd rfl h)⟩
  · intro id dt b m k
    simp only [memProvider]
    split
    · exact .inl
    · simp only [KV.set]; split
      · rename_i h; exact fun _ => .inr h
      · exact .inl
  · intro id dt m
    simp only [memProvider]
    split <;> rfl
  · intro id dt b m k
    simp only [memProvider]
    split
    · exact .inl
    · simp only [KV.set]; split
      · rename_i h; exact fun _ => .inr h
      · exact .inl
  · intro id dt m k
    simp only [memProvider, KV.set]
    split
    · exact fun h => absurd rfl h
    · exact fun h => h

include L in
/-- C121 on the library's own `Bolt` provider, as long as records are within the limits of bbolt. -/
theorem C121_bolt (hd : d.idProvider = s.getIdentity P) (hi : i.idProvider = s.getIdentity P) (hk : i.indexKey.length = 32) (hf : NoFault env)
    (hr : RandOk env) {α : Type} (p : Client α) (hfit : BoltRuns env (clientProg P d i s fuel p) nothing)
    (hN : (clientCalls P d i s fuel env p (boltView nothing)).length < 2 ^ 64) (hfuel : (clientCalls P d i s fuel env p (boltView nothing)).length < fuel)
    (ha : Apart P i ((clientCalls P d i s fuel env p (boltView nothing)).flatMap LibCall.keyword) (clientCalls P d i s fuel env p (boltView nothing)).length)
    (hh : Honest P d i s fuel env p (boltView nothing) emptyLibrary) :
    let m := ((clientProg P d i s fuel p).runOn boltProvider env nothing).2.state
    HoldsOnly ((clientCalls P d i s fuel env p (boltView nothing)).flatMap LibCall.keyword)
      (p.play sanitize emptyLibrary (clientIns P d i s fuel env p (boltView nothing))).2 (fun x dt => m (boltKey x dt)) ∧
    ∀ k, m k ≠ none → ∃ x dt, k = boltKey x dt := by
  have h1 := bolt_run nothing_tidy (solid_client (fuel := fuel) hd hi p) hfit
  have h2 := C121_holds L hd hi hk hf hr p (w := boltView nothing) (fun _ _ => rfl) hN hfuel ha hh
  rw [h1] at h2
  have hb : ∀ (k' : Bytes) (b : Bytes) (m : KV) (k : Bytes), (bucketPut k' b m).2 k ≠ none → m k ≠ none ∨ k = k' := by
    intro k' b m k
    simp only [bucketPut]
    split
    · exact .inl
    split
    · exact .inl
    · simp only [KV.set]; split
      · rename_i h; exact fun _ => .inr h
      · exact .inl
  refine ⟨h2, keys_run ?_ ?_ ?_ ?_ _ (fun k h => absurd rfl h)⟩
  · intro id dt b m k
    simp only [boltProvider]
    split
    · exact .inl
    · exact hb _ _ _ _
  · intro id dt m
    simp only [boltProvider]
    split <;> rfl
  · intro id dt b m k
    simp only [boltProvider]
    split
    · exact .inl
    · exact hb _ _ _ _
  · intro id dt m k
    simp only [boltProvider, KV.set]
    split
    · exact fun h => absurd rfl h
    · exact fun h => h

/-- C121: when everything was deleted again, the store is as empty as it was at first. -/
theorem C121_empty {K : List GoString} {l : Library} {st : Store} (h : HoldsOnly K l st) (ho : ∀ x, l.objects x = none) (hu : ∀ x, l.users x = none)
    (hg : ∀ x, l.groups x = none) (hi : ∀ kw ∈ K, l.index kw = []) : ∀ x dt, st x dt = none := by
  intro x dt
  by_contra hx
  by_cases h1 : dt = dtObject
  · subst h1; obtain ⟨oid, _, h2⟩ := (h.objects x).mp hx; exact h2 (ho oid)
  by_cases h2 : dt = dtAccess
  · subst h2; obtain ⟨oid, _, h2⟩ := (h.access x).mp hx; exact h2 (ho oid)
  by_cases h3 : dt = dtUser
  · subst h3; exact (h.users x).mp hx (hu x)
  by_cases h4 : dt = dtGroup
  · subst h4; exact (h.groups x).mp hx (hg x)
  by_cases h5 : dt = dtNode
  · subst h5
    obtain ⟨ps, _, g2, g3⟩ := h.nodes
    have : (K.dedup.map fun kw => (l.index kw).length) = K.dedup.map fun _ => 0 :=
      List.map_congr_left fun kw hkw => by rw [hi kw (List.mem_dedup.mp hkw)]; rfl
    have hz : ∀ J : List GoString, (J.map fun _ => 0).sum = 0 := fun J => by induction J <;> simp_all
    rw [this, hz, List.length_eq_zero_iff] at g3
    subst g3
    exact absurd ((g2 x).mp hx) (by simp)
  · exact hx (h.others x dt h1 h2 h3 h4 h5)

/-! ## A visit -/

/-- A client that makes a user, logs in, makes an object and an entry in the index, and deletes all of it. -/
def visit (o : Object) (kw id : GoString) : Client Unit :=
  .call (.dir (.newUser [scopeAll])) fun
    | .ok (.dir (.user u p)) => .call (.dir (.loginUser u p)) fun
      | .ok (.session t _) => .call (.d1 (.encrypt t o [])) fun
        | .ok (.d1 (.oid oid)) => .call (.index (.add t kw id)) fun _ => .call (.index (.delete t kw id)) fun _ =>
          .call (.d1 (.delete t oid)) fun _ => .call (.dir (.deleteUser t u)) fun _ => .done ()
        | _ => .done ()
      | _ => .done ()
    | _ => .done ()

theorem in_all_delete : scopeIn scopeDelete scopeAll = true := by decide

/-- The visit, on the machine. -/
theorem visit_play {ins : Nat → LibIn} (hclock : ∀ a b, (ins a).now ≤ (ins b).issued + hour) (hid : sanitize (ins 0).newId = (ins 0).newId)
    (o : Object) {kw x : GoString} (hx : sanitize x = x) : (visit o kw x).Careful sanitize emptyLibrary ins ∧
      let l := ((visit o kw x).play sanitize emptyLibrary ins).2
      (∀ y, l.objects y = none) ∧ (∀ y, l.users y = none) ∧ (∀ y, l.groups y = none) ∧ ∀ y, l.index y = [] := by
  let l1 := emptyLibrary.setUser (ins 0).newId (some ⟨(ins 0).password, scopeAll, []⟩)
  have e1 : libStep sanitize emptyLibrary (ins 0) (.dir (.newUser [scopeAll])) = (.ok (.dir (.user (ins 0).newId (ins 0).password)), l1) := by
    simp [libStep, libDir, emptyLibrary, all_scopes, l1]
  have u1 : l1.users (ins 0).newId = some ⟨(ins 0).password, scopeAll, []⟩ := by simp [l1, Library.setUser]
  let l2 : Library := { l1 with sessions := [⟨(ins 1).text, (ins 0).newId, (ins 1).issued + hour⟩] }
  have e2 : libStep sanitize l1 (ins 1) (.dir (.loginUser (ins 0).newId (ins 0).password)) =
      (.ok (.session (ins 1).text (((ins 1).issued + hour) / 1000000000)), l2) := by
    simp [libStep, libDir, u1, l2, l1, Library.setUser, emptyLibrary]
  let l3 : Library := { l2 with objects := l2.objects.set (ins 2).fresh (some ⟨o, fun y => [(ins 0).newId].any fun g => sanitize g == y⟩) }
  have e3 : libStep sanitize l2 (ins 2) (.d1 (.encrypt (ins 1).text o [])) = (.ok (.d1 (.oid (ins 2).fresh)), l3) := by
    simp only [libStep, Call.token, one_identity (l := l2) rfl u1 rfl (hclock 2 1), step, authenticate, in_all.1, if_true]
    rfl
  let l4 : Library := { l3 with index := l3.index.set kw (l3.index kw ++ [sanitize x]) }
  have e4 : libStep sanitize l3 (ins 3) (.index (.add (ins 1).text kw x)) = (.ok (.index .unit), l4) := by
    simp only [libStep, IxCall.token, one_identity (l := l3) rfl u1 rfl (hclock 3 1), ixStep, in_all.2.2, if_true]
    rfl
  let l5 : Library := { l4 with index := l4.index.set kw ((l4.index kw).filter (· ≠ x)) }
  have e5 : libStep sanitize l4 (ins 4) (.index (.delete (ins 1).text kw x)) = (.ok (.index .unit), l5) := by
    simp only [libStep, IxCall.token, one_identity (l := l4) rfl u1 rfl (hclock 4 1), ixStep, in_all.2.2, if_true]
    rfl
  let l6 : Library := { l5 with objects := l5.objects.set (ins 2).fresh none }
  have e6 : libStep sanitize l5 (ins 5) (.d1 (.delete (ins 1).text (ins 2).fresh)) = (.ok (.d1 .unit), l6) := by
    simp only [libStep, Call.token, one_identity (l := l5) rfl u1 rfl (hclock 5 1), step, authenticate, in_all_delete, if_true]
    simp [l6, l5, l4, l3, Vault.set, allowed, hid, in_all_delete, Except.map]
  let l7 : Library := l6.setUser (ins 0).newId none
  have e7 : libStep sanitize l6 (ins 6) (.dir (.deleteUser (ins 1).text (ins 0).newId)) = (.ok (.dir .unit), l7) := by
    have h1 : l6.who (ins 6).now (ins 1).text = some (ins 0).newId := by
      simp [Library.who, l6, l5, l4, l3, l2, hclock 6 1]
    have h2 : l6.identify (ins 6).now (ins 1).text = .ok ((ins 0).newId, ⟨(ins 0).password, scopeAll, []⟩) := by
      simp [Library.identify, h1, show l6.users (ins 0).newId = _ from u1]
    simp [libStep, libDir, Library.asCaller, h2, l7]
  constructor
  · simp only [visit, Client.Careful]
    rw [e1]; simp only [Client.Careful]
    rw [e2]; simp only [Client.Careful]
    rw [e3]; simp only [Client.Careful]
    rw [e4, e5, e6]
    refine ⟨⟨by simp [LibCall.text], by simp, by simp⟩, ⟨by simp [LibCall.text], by simp, ?_⟩, ⟨?_, by simp, by simp⟩, ⟨?_, by simp, by simp⟩,
      ⟨?_, by simp, by simp⟩, ⟨?_, by simp, by simp⟩, ⟨?_, by simp, by simp⟩, trivial⟩
    · rintro uid p u (h | h) hu
      · cases h
        rw [u1] at hu
        cases hu
        rfl
      · cases h
    all_goals first
      | (rintro t ht; cases ht; exact ⟨_, List.mem_singleton.mpr rfl, rfl⟩)
  · simp only [visit, Client.play]
    rw [e1]; simp only [Client.play]
    rw [e2]; simp only [Client.play]
    rw [e3]; simp only [Client.play]
    rw [e4, e5, e6, e7]
    refine ⟨fun y => ?_, fun y => ?_, fun y => rfl, fun y => ?_⟩
    · simp only [l7, l6, l5, l4, l3, l2, l1, Library.setUser, emptyLibrary, Vault.set]
      split <;> simp_all
    · simp only [l7, l6, l5, l4, l3, l2, l1, Library.setUser, emptyLibrary]
      split <;> simp_all
    · simp only [l7, l6, l5, l4, l3, l2, l1, Library.setUser, emptyLibrary, Index.set]
      split <;> simp_all

theorem visit_atMost (o : Object) (kw x : GoString) : AtMost [kw] 7 (visit o kw x) := by
  refine ⟨by simp [LibCall.keyword], fun r => ?_⟩
  beta_reduce
  split
  swap; · trivial
  refine ⟨by simp [LibCall.keyword], fun r => ?_⟩
  beta_reduce
  split
  swap; · trivial
  refine ⟨by simp [LibCall.keyword], fun r => ?_⟩
  beta_reduce
  split
  swap; · trivial
  exact ⟨by simp [LibCall.keyword, IxCall.keyword], fun r => ⟨by simp [LibCall.keyword, IxCall.keyword], fun r =>
    ⟨by simp [LibCall.keyword], fun r => ⟨by simp [LibCall.keyword], fun _ => trivial⟩⟩⟩⟩

include L in
/-- C121 on a visit, for all keys, all random values and all contents: it leaves no trace in the store. -/
theorem C121_visit (hd : d.idProvider = s.getIdentity P) (hi : i.idProvider = s.getIdentity P) (hk : i.indexKey.length = 32) (hf : NoFault env)
    (hr : RandOk env) (hclock : ∀ a b, (env.now a).ns ≤ (env.now b).ns + hour) (o : Object) (kw : GoString) {x : GoString} (hx : sanitize x = x)
    (ha : Apart P i [kw] 7) (hfuel : 7 < fuel) {w : World} (hw : ∀ x dt, w.store x dt = none) :
    ∀ y dt, ((clientProg P d i s fuel (visit o kw x)).run env w).2.store y dt = none := by
  obtain ⟨hn, hkw⟩ := (visit_atMost o kw x).calls (P := P) (d := d) (i := i) (s := s) (fuel := fuel) (env := env) w
  obtain ⟨h1, h2, h3, h4, h5⟩ := visit_play (ins := clientIns P d i s fuel env (visit o kw x) w) (fun m n => by
    obtain ⟨⟨t, ht⟩, -⟩ := clientIns_clock (P := P) (d := d) (i := i) (s := s) (fuel := fuel) (env := env) (visit o kw x) w m
    obtain ⟨-, t', ht'⟩ := clientIns_clock (P := P) (d := d) (i := i) (s := s) (fuel := fuel) (env := env) (visit o kw x) w n
    rw [ht, ht']
    exact hclock t t') (sanitize_uuidText _) o (kw := kw) hx
  have hh := careful_honest L hd hi hk hf hr (by decide) ha hfuel (visit o kw x) (a := 0) (w := w) (by omega) hkw (libRel_empty hw) h1
  obtain ⟨w', g1, g2⟩ := C88_from L hd hi hk hf hr (by decide) ha hfuel (visit o kw x) (a := 0) (w := w) (by omega) hkw (libRel_empty hw) hh
  have g3 := makes_client L hd hi hk hf hr (by decide) ha hfuel (visit o kw x) (a := 0) (w := w) (by omega) hkw (libRel_empty hw) hh
    (fun x dt h => absurd (hw x dt) h)
  rw [g1] at g3 ⊢
  exact C121_empty (holdsOnly ha (by omega) g2 g3) h2 h3 h4 fun y _ => h5 y

end

/-- The hypotheses of `C121_visit` hold in the toy setting, with keyword `[107]`. -/
example : ∃ (d : D1) (i : SecureIndex) (s : Standalone), d.idProvider = s.getIdentity toyPrims ∧ i.idProvider = s.getIdentity toyPrims ∧
    i.indexKey.length = 32 ∧ (let env : Env := { toyEnv with now := fun _ => ⟨7, 0⟩ }; NoFault env ∧ RandOk env ∧
      ∀ a b, (env.now a).ns ≤ (env.now b).ns + hour) ∧ Apart toyPrims i [[107]] 7 ∧ sanitize [120] = [120] := by
  let s : Standalone := ⟨⟨List.replicate 32 4⟩, ⟨List.replicate 32 5⟩, ⟨List.replicate 32 6⟩⟩
  refine ⟨{ toyD1 with idProvider := s.getIdentity toyPrims }, { toyIndex with idProvider := s.getIdentity toyPrims }, s, rfl, rfl, rfl,
    ⟨toyEnv_noFault, toyEnv_randOk, fun a b => by simp [hour]⟩, ?_, by decide +kernel⟩
  unfold Apart
  decide +kernel

end D1
