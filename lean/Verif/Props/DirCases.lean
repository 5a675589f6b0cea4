import Verif.Props.DirCrash
import Verif.Props.EscalateCase
import Verif.Props.TokenCases
/-!
# Concrete cases for C37 to C41, C85 and C87

The directory of `toyDir`: users `[7]` and `[8]` with password `[112]`, both in group `[20]`.
-/
namespace D1
open Spec Prog

/-! ## The directory -/

/-- The password that `ChangeUserPassword` gives `[8]`. -/
def toyPassword : GoString := match ((dirProg toyPrims toyStandalone (.changePassword [8] [112])).run toyEnv toyDir).1 with
  | .ok (.password q) => q
  | _ => []

/-- What is called after that. -/
def toyRest : List DirCall := [.addUser (toyToken [7]) [8] [[20]], .changePassword [8] [112], .deleteUser (toyToken [9]) [8]]

theorem toyPassword_run : ((dirProg toyPrims toyStandalone (.changePassword [8] [112])).run toyEnv toyDir).1 = .ok (.password toyPassword) := by
  have h : (match ((dirProg toyPrims toyStandalone (.changePassword [8] [112])).run toyEnv toyDir).1 with
    | .ok (.password q) => true | _ => false) = true := by decide +kernel
  unfold toyPassword
  split
  · assumption
  · next hn => 
    split at h
    · next q hq => exact absurd hq (hn q)
    · cases h

/-- The call may replace the record of the user. -/
def touches (uid : GoString) : DirCall → Bool
  | .changePassword u _ | .deleteUser _ u => decide (u = uid)
  | _ => false

theorem untouched_of_hist {P : Prims} {s : Standalone} {env : Env} {uid : GoString} : ∀ (calls : List DirCall) (w : World),
    ((calls.zip (dirCodeHist P s env w calls)).all fun x => !(touches uid x.1 && succeeded x.2)) = true → Untouched P s env uid w calls
  | [], _, _ => trivial
  | c :: r, w, h => by
    simp only [dirCodeHist, List.zip_cons_cons, List.all_cons, Bool.and_eq_true, Bool.not_eq_true'] at h
    refine ⟨fun p q hc hr => ?_, fun t hc hr => ?_, untouched_of_hist r _ h.2⟩
    · subst hc
      rw [hr] at h
      simp [touches, succeeded] at h
    · subst hc
      rw [hr] at h
      simp [touches, succeeded] at h

/-- C37: `[8]` changed its password.  Then it was added to its group again, somebody tried the old password to change it again,
and somebody unknown tried to delete `[8]`.  The new password is the one that is accepted. -/
theorem C37_case : Untouched toyPrims toyStandalone toyEnv [8] ((dirProg toyPrims toyStandalone (.changePassword [8] [112])).run toyEnv toyDir).2 toyRest ∧
    canLogin (dirCodeAfter toyPrims toyStandalone toyEnv toyDir (.changePassword [8] [112] :: toyRest)) [8] toyPassword = true ∧
    canLogin (dirCodeAfter toyPrims toyStandalone toyEnv toyDir (.changePassword [8] [112] :: toyRest)) [8] [112] = false := by
  have h : ((toyRest.zip (dirCodeHist toyPrims toyStandalone toyEnv ((dirProg toyPrims toyStandalone (.changePassword [8] [112])).run toyEnv toyDir).2
        toyRest)).all fun x => !(touches [8] x.1 && succeeded x.2)) = true ∧
      canLogin (dirCodeAfter toyPrims toyStandalone toyEnv toyDir (.changePassword [8] [112] :: toyRest)) [8] toyPassword = true ∧
      canLogin (dirCodeAfter toyPrims toyStandalone toyEnv toyDir (.changePassword [8] [112] :: toyRest)) [8] [112] = false := by
    decide +kernel
  exact ⟨untouched_of_hist _ _ h.1, h.2⟩

/-- C38: a history in which some calls succeed and others do not. -/
theorem C38_case : DirRel toyPrims toyStandalone toyDir.store toyDirectory ∧
    (dirCodeHist toyPrims toyStandalone toyEnv toyDir [.newUser [scopeAll], .addUser (toyToken [7]) [8] [[21]],
      .removeUser (toyToken [8]) [7] [[20]], .removeUser (toyToken [7]) [8] [[20]], .deleteUser (toyToken [8]) [7],
      .getIdentity (toyToken [7])]).map succeeded = [true, false, true, false, true, false] :=
  ⟨toyDir_rel, by decide +kernel⟩

/-- C39: `[8]` is in group `[20]`; after it was deleted its token is of no use, although a new user and a new group were made. -/
theorem C39_case : groupsOf toyDir [8] = .ok [[20]] ∧
    ((toyStandalone.getIdentity toyPrims (toyToken [8])).run toyEnv (dirCodeAfter toyPrims toyStandalone toyEnv toyDir
      [.deleteUser (toyToken [7]) [8], .newUser [scopeAll], .newGroup (toyToken [7]) []])).1 = .err .userNotFound ∧
    (dirCodeHist toyPrims toyStandalone toyEnv toyDir [.deleteUser (toyToken [7]) [8], .newUser [scopeAll], .newGroup (toyToken [7]) []]).map succeeded =
      [true, true, true] := by
  decide +kernel

/-- C40: `[7]` removes `[8]` from their group, and that is written; `[7]` cannot add it to a group that it is not in. -/
theorem C40_case :
    (∃ tr, Yields (toyStandalone.removeUserFromGroups toyPrims (toyToken [7]) [8] [[20]]) tr (.ok ()) ∧ ∃ ev ∈ tr, ev.1.isWrite = true) ∧
    ((toyStandalone.addUserToGroups toyPrims (toyToken [7]) [8] [[21]]).run toyEnv toyDir).1 = .err .idNotAuthorized := by
  have h1 := yields_traceOf toyEnv (toyStandalone.removeUserFromGroups toyPrims (toyToken [7]) [8] [[20]]) toyDir
  have g : ((toyStandalone.removeUserFromGroups toyPrims (toyToken [7]) [8] [[20]]).run toyEnv toyDir).1 = .ok () ∧
      (traceOf toyEnv (toyStandalone.removeUserFromGroups toyPrims (toyToken [7]) [8] [[20]]) toyDir).any (·.1.isWrite) = true ∧
      ((toyStandalone.addUserToGroups toyPrims (toyToken [7]) [8] [[21]]).run toyEnv toyDir).1 = .err .idNotAuthorized := by decide +kernel
  obtain ⟨g1, k1, g2⟩ := g
  rw [g1] at h1
  generalize traceOf toyEnv (toyStandalone.removeUserFromGroups toyPrims (toyToken [7]) [8] [[20]]) toyDir = t1 at h1 k1
  exact ⟨⟨t1, h1, List.any_eq_true.mp k1⟩, g2⟩

theorem addsExisting_two {P : Prims} {s : Standalone} {env : Env} {w : World} {v : Dir} {t t' uid uid' : GoString} {gs gs' : List GoString}
    (h : ∀ g ∈ gs, (v.groups g).isSome = true) : AddsExisting v (dirAnnotate P s env w [.addUser t uid gs, .removeUser t' uid' gs']) :=
  ⟨fun _ _ _ hc => by cases hc; exact h, ⟨fun _ _ _ hc => (nomatch hc), trivial⟩⟩

/-- C41: `[7]` adds `[8]` to the group that both are in, and `[8]` removes `[7]` from it; `[8]` can still be identified. -/
theorem C41_case : ∃ i, ((toyStandalone.getIdentity toyPrims (toyToken [8])).run toyEnv
      (dirCodeAfter toyPrims toyStandalone toyEnv toyDir [.addUser (toyToken [7]) [8] [[20]], .removeUser (toyToken [8]) [7] [[20]]])).1 = .ok i ∧
    i.id = [8] := by
  have hu : Usable toyDirectory := by
    intro uid u hu g hg
    simp only [toyDirectory] at hu
    split at hu
    · cases hu
      rw [List.mem_singleton.mp hg]
      rfl
    · cases hu
  have hc : AddsExisting toyDirectory (dirAnnotate toyPrims toyStandalone toyEnv toyDir [.addUser (toyToken [7]) [8] [[20]], .removeUser (toyToken [8]) [7] [[20]]]) :=
    addsExisting_two (by decide)
  have hk : (match (dirAfter toyDirectory (dirAnnotate toyPrims toyStandalone toyEnv toyDir
      [.addUser (toyToken [7]) [8] [[20]], .removeUser (toyToken [8]) [7] [[20]]])).users [8] with | some _ => true | none => false) = true ∧
      tokenUser toyPrims toyStandalone.tokenCryptor (toyToken [8]) (toyEnv.now (dirCodeAfter toyPrims toyStandalone toyEnv toyDir
        [.addUser (toyToken [7]) [8] [[20]], .removeUser (toyToken [8]) [7] [[20]]]).t).ns = some [8] := by
    decide +kernel
  cases hx : (dirAfter toyDirectory (dirAnnotate toyPrims toyStandalone toyEnv toyDir
      [.addUser (toyToken [7]) [8] [[20]], .removeUser (toyToken [8]) [7] [[20]]])).users [8] with
  | none => rw [hx] at hk; cases hk.1
  | some u => exact C41_usable_partial toyLaws toyEnv_noFault toyEnv_randOk toyDir_rel hu _ hc hx hk.2

/-! ## C85 and C87 -/

/-- The directory, and an object shared by group `[20]` and `[7]`. -/
def toyHouse : World := ⟨fun id dt =>
  if id = nilOid.1 ∧ dt = dtObject then
    some (sealedObj toyPrims nilOid ⟨some [1], some [2]⟩ ⟨List.replicate 32 9, rfl⟩ ⟨List.replicate 12 9, rfl⟩).toJ.render
  else if id = nilOid.1 ∧ dt = dtAccess then some (sealedAcc toyPrims toySystem nilOid
    ⟨some [[7], [20]], some (kwpBox toyPrims toySystem.objectCryptor.kwp (List.replicate 32 9))⟩ ⟨List.replicate 32 8, rfl⟩
    ⟨List.replicate 12 8, rfl⟩).toJ.render
  else toyDir.store id dt, 0⟩

/-- The vault it represents. -/
def toyCellar : Vault := fun oid =>
  if oid = nilOid then some ⟨⟨some [1], some [2]⟩, fun x => decide (x = [7] ∨ x = [20])⟩ else none

theorem toyHouse_rel : SysRel toyPrims toySystem toyStandalone toyHouse.store (toyDirectory, toyCellar) := by
  have hs : sanList [[7], [20]] = [[7], [20]] := by decide +kernel
  refine ⟨⟨fun uid => ?_, fun gid => ?_⟩, fun oid => ?_⟩
  · have h : toyHouse.store uid dtUser = toyDir.store uid dtUser := by
      simp only [toyHouse]
      rw [if_neg (fun h => absurd h.2 (by decide)), if_neg (fun h => absurd h.2 (by decide))]
    have := toyDir_rel.1 uid
    unfold UserRel at this ⊢
    split at this
    · next hx => simp only [hx]; rw [h]; exact this
    · next u hx => simp only [hx]; unfold UserAt at this ⊢; rw [h]; exact this
  · have h : toyHouse.store gid dtGroup = toyDir.store gid dtGroup := by
      simp only [toyHouse]
      rw [if_neg (fun h => absurd h.2 (by decide)), if_neg (fun h => absurd h.2 (by decide))]
    have := toyDir_rel.2 gid
    unfold GroupRel at this ⊢
    split at this
    · next hx => simp only [hx]; rw [h]; exact this
    · next u hx => simp only [hx]; unfold GroupAt at this ⊢; rw [h]; exact this
  · by_cases h : oid = nilOid
    · subst h
      simp only [toyCellar, if_true]
      refine ⟨⟨some [[7], [20]], some (kwpBox toyPrims toySystem.objectCryptor.kwp (List.replicate 32 9))⟩,
        ⟨[[7], [20]], _, ⟨List.replicate 32 8, rfl⟩, ⟨List.replicate 12 8, rfl⟩, ?_, by rw [hs]⟩,
        ⟨⟨List.replicate 32 9, rfl⟩, ⟨List.replicate 12 9, rfl⟩, ?_, rfl⟩, fun x => by simp [GoSet.has]⟩
      · unfold toyHouse
        simp only
        rw [if_neg (fun h => absurd h.2 (by decide)), if_pos ⟨trivial, trivial⟩]
      · unfold toyHouse
        simp only
        rw [if_pos ⟨trivial, trivial⟩]
    · have h' : oid.1 ≠ nilOid.1 := fun h2 => h (Subtype.ext h2)
      simp only [toyCellar, if_neg h, toyHouse, toyDir]
      constructor
      · rw [if_neg (fun h => h' h.1), if_neg (fun h => h' h.1), if_neg (fun h => absurd h.2 (by decide)), if_neg (fun h => absurd h.2 (by decide))]
      · rw [if_neg (fun h => h' h.1), if_neg (fun h => h' h.1), if_neg (fun h => absurd h.2 (by decide)), if_neg (fun h => absurd h.2 (by decide))]

/-- The calls made after `[8]` was removed from the group: it tries to read the object, to let itself in and to enter the group again, while `[7]`
uses the object and makes new users and groups. -/
def toyBusy : List ApiCall := [.d1 (.decrypt (toyToken [8]) nilOid), .d1 (.addGroups (toyToken [8]) nilOid [[8]]), .dir (.addUser (toyToken [8]) [8] [[20]]),
  .d1 (.decrypt (toyToken [7]) nilOid), .d1 (.addGroups (toyToken [7]) nilOid [[20]]), .dir (.newUser [scopeAll]), .dir (.newGroup (toyToken [8]) [scopeAll])]

/-- C85: `[7]` removes `[8]` from the group with which the object is shared.  From then on `[8]` cannot read it, whatever the schedule of the calls. -/
theorem C85_case : ∃ w1, (toyStandalone.removeUserFromGroups toyPrims (toyToken [7]) [8] [[20]]).run toyEnv toyHouse = (.ok (), w1) ∧
    ∀ sch, (0, Outcome.ok ()) ∉ commits toyEnv sch w1 (toyBusy.map (apiProg toyPrims toySystem castIndex toyStandalone)) := by
  have h : ((toyStandalone.removeUserFromGroups toyPrims (toyToken [7]) [8] [[20]]).run toyEnv toyHouse).1 = .ok () := by decide +kernel
  have h8 : Names toyPrims toyStandalone (toyToken [8]) [8] := ⟨0, by decide +kernel⟩
  refine ⟨_, run_ok_of h, fun sch hm => ?_⟩
  have key := C85_revoked toyLaws (d := toySystem) (i := castIndex) rfl rfl toyEnv_noFault toyEnv_randOk toyHouse_rel (run_ok_of h) (u := ⟨fun p => decide
      (toyPrims.pbkdf2 p (List.replicate saltLength 3) = toyPrims.pbkdf2 [112] (List.replicate saltLength 3)), scopeAll, [[20]]⟩) (by rfl)
    (oid := nilOid) (e := ⟨⟨some [1], some [2]⟩, fun x => decide (x = [7] ∨ x = [20])⟩) (by rfl) (by decide) (fun g hg _ => hg) (env' := toyEnv)
    (by
      rintro t b - ⟨⟩
      have hlen : ∀ b, (newName b).length = 36 := fun b => uuidText_length _
      constructor
      · rw [decide_eq_false_iff_not]
        rintro (h | h) <;> have := hlen (b := ⟨List.replicate 16 (UInt8.ofNat t), by simp⟩) <;> rw [h] at this <;> cases this
      · intro h
        have h6 : (mkV4 ⟨List.replicate 16 (UInt8.ofNat t), by simp⟩).1.getD 6 0 = nilOid.1.getD 6 0 := by rw [h]
        have key : ∀ k : Fin 256, (mkV4 ⟨List.replicate 16 (UInt8.ofNat k.1), by simp⟩).1.getD 6 0 ≠ nilOid.1.getD 6 0 := by decide +kernel
        have ht : UInt8.ofNat t = UInt8.ofNat (t % 256) := UInt8.toNat_inj.mp (by simp)
        simp only [ht] at h6
        exact key ⟨t % 256, by omega⟩ h6)
    toyBusy (fun t gs hc => by
      simp only [toyBusy, List.mem_cons, reduceCtorEq, ApiCall.d1.injEq, Call.addGroups.injEq, List.not_mem_nil, or_false, false_or] at hc
      rcases hc with ⟨rfl, -, rfl⟩ | ⟨rfl, -, rfl⟩
      · exact .inl h8
      · exact .inr (by decide)) (fun t gs hc => by
      simp only [toyBusy, List.mem_cons, reduceCtorEq, ApiCall.dir.injEq, DirCall.addUser.injEq, List.not_mem_nil, or_false, false_or] at hc
      obtain ⟨rfl, -, rfl⟩ := hc
      exact .inl h8) sch 0 (.decrypt (toyToken [8]) nilOid) rfl rfl h8
  obtain ⟨t, ht⟩ := key.1 hm
  cases ht

/-- C87: `NewGroup` in the directory of `toyDir`, cut off before its first write, between its writes and after the second: whether there is a
group with the new name, and whether `[7]` is in it. -/
theorem C87_case : [6, 7, 11].map (fun n =>
      let w := ((dirProg toyPrims toyStandalone (.newGroup (toyToken [7]) [scopeAll])).runN toyEnv n toyDir).2
      ((w.store (dirIn toyPrims toyStandalone toyEnv toyDir (.newGroup (toyToken [7]) [scopeAll])).newId dtGroup).isSome,
        decide (groupsOf w [7] = .ok [[20], (dirIn toyPrims toyStandalone toyEnv toyDir (.newGroup (toyToken [7]) [scopeAll])).newId]))) =
    [(false, false), (true, false), (true, true)] := by
  decide +kernel

end D1
